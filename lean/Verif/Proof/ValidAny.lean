import Verif.Proof.ValidType
/-! `<type>_IsConstraintValid` of objects that need not denote a value. -/
namespace Asn1

/-- A check ends and tells whether `P` holds. -/
def Decides (m : M (Bool × ErrCode)) (P : Prop) : Prop := ∃ b err', m = pure (b, err') ∧ (b = true ↔ P)

theorem Tells.decides {p : List Nat} {m : M (Bool × ErrCode)} {err : ErrCode} {P : Prop} {bad : List Nat → Prop}
    (h : Tells p m err P bad) : Decides m P := by
  obtain ⟨b, e, h1, h2, _⟩ := h; exact ⟨b, e, h1, h2⟩

theorem Decides.congr {m : M (Bool × ErrCode)} {P Q : Prop} (h : Decides m P) (e : P ↔ Q) : Decides m Q := by
  rw [← propext e]; exact h

theorem decides_meaning {t : CTy} {v : CVal} {a : AV} (hm : meaning t v = some a) (hf : t.Fits) (p : List Nat) (err : ErrCode) :
    Decides (validT p t v err) (∃ a, meaning t v = some a ∧ t.Sat a) :=
  (validT_tells t p v a err hm hf).decides.congr
    ⟨fun h => ⟨a, hm, h⟩, fun ⟨b, h1, h2⟩ => by rw [hm] at h1; cases h1; exact h2⟩

theorem decides_false {t : CTy} {v : CVal} (hm : meaning t v = none) {m : M (Bool × ErrCode)} (h : Decides m False) :
    Decides m (∃ a, meaning t v = some a ∧ t.Sat a) :=
  h.congr ⟨False.elim, fun ⟨b, h1, _⟩ => by rw [hm] at h1; cases h1⟩

theorem first_false {x : VC} {xs : List VC} {v : CVal} (h : x.Den v False) (p : List Nat) (err : ErrCode) :
    Decides (checkCons p (multiAnd (x :: xs)) v err) False := by
  unfold multiAnd
  by_cases hf : (x :: xs).any VC.isFf = true
  · rw [if_pos hf]
    exact ⟨false, some p, rfl, by simp⟩
  · rw [if_neg hf]
    cases x with
    | tt => exact absurd h id
    | ff => simp [VC.isFf] at hf
    | expr e =>
      obtain ⟨b, h1, h2⟩ := h
      have hb : b = false := by cases b <;> simp_all
      subst hb
      refine ⟨false, some p, ?_, by simp⟩
      simp only [List.filter_cons, VC.isCode, if_true, checkCons, VC.run, nestRun, h1]
      rfl
    | stat f =>
      obtain ⟨b, h1, h2⟩ := h
      have hb : b = false := by cases b <;> simp_all
      subst hb
      refine ⟨false, some p, ?_, by simp⟩
      simp only [List.filter_cons, VC.isCode, if_true, checkCons, VC.run, nestRun, h1]
      rfl

theorem then_decides {c d : Check} {v : CVal} {err : ErrCode} {P Q R : Prop}
    (h1 : Decides (c v err) P) (h2 : P → ∀ e, Decides (d v e) Q) (hR : R ↔ P ∧ Q) : Decides ((c.then d) v err) R := by
  obtain ⟨b, e1, a1, a2⟩ := h1
  show Decides (do let r ← c v err; if r.1 then d v r.2 else pure r) _
  rw [a1, Mpure_bind]
  cases b
  · exact ⟨false, e1, rfl, by rw [hR, ← a2]; simp⟩
  · obtain ⟨b', e2, b1, b2⟩ := h2 (a2.1 rfl) e1
    exact ⟨b', e2, b1, by rw [hR, b2, ← a2]; simp⟩

/-- A count that exceeds the array violates the first constraint. -/
theorem count_too_large {hi : Nat} {n : Int} {v : CVal} {cons : List AC} {t : CTy} (hb : BoundedBy hi cons) (h0 : 0 ≤ n) (h1 : n < 2 ^ 31)
    (hn : ¬ n ≤ hi) (hg : getSize v = pure n) (hvc : ∀ c, acVC t (.size c) = sizeVC c) (p : List Nat) (err : ErrCode) :
    Decides (checkCons p (consVC t cons) v err) False := by
  obtain ⟨c, rest, rfl, hc⟩ := hb
  unfold consVC
  rw [List.map_cons, hvc]
  refine first_false ?_ p err
  have := den_size (v := v) (n := n.toNat) (c := c) (by rw [hg]; congr 1; omega) (by omega)
  refine this.congr ⟨fun h => ?_, False.elim⟩
  have := hc _ h
  omega

theorem checkLoop_decides {body : Check} {t : CTy} {arr : List CVal} {P : AV → Prop} :
    ∀ (n i : Nat) (err : ErrCode), i + n ≤ arr.length →
      (∀ w ∈ (arr.drop i).take n, ∀ err, Decides (body w err) (∃ x, meaning t w = some x ∧ P x)) →
      Decides (checkLoop body arr n i err)
        (∃ xs, List.Forall₂ (fun w x => meaning t w = some x) ((arr.drop i).take n) xs ∧ ∀ x ∈ xs, P x)
  | 0, i, err, _, h => ⟨true, err, rfl, by simp⟩
  | n + 1, i, err, hl, h => by
    have hi : i < arr.length := by omega
    rw [List.drop_eq_getElem_cons hi, List.take_succ_cons] at h ⊢
    obtain ⟨b, e1, a1, a2⟩ := h arr[i] (by simp) err
    rw [checkLoop, tblGet_pure hi, Mpure_bind, a1, Mpure_bind]
    cases b
    · refine ⟨false, e1, rfl, ?_⟩
      simp only [Bool.false_eq_true, false_iff] at a2 ⊢
      rintro ⟨xs, hx, hP⟩
      cases hx with
      | cons h1 h2 => exact a2 ⟨_, h1, hP _ (by simp)⟩
    · obtain ⟨b', e2, b1, b2⟩ := checkLoop_decides (P := P) (arr := arr) n (i + 1) e1 (by omega) (fun w hw => h w (by simp [hw]))
      refine ⟨b', e2, b1, ?_⟩
      rw [b2]
      obtain ⟨x, hx, hPx⟩ := a2.1 rfl
      constructor
      · rintro ⟨xs, h1, h2⟩
        refine ⟨x :: xs, .cons hx h1, ?_⟩
        simp only [List.mem_cons, forall_eq_or_imp]
        exact ⟨hPx, h2⟩
      · rintro ⟨xs, h1, h2⟩
        cases h1 with
        | cons h3 h4 => exact ⟨_, h4, fun y hy => h2 y (by simp [hy])⟩

theorem meaning_of_count {lo hi : Nat} {n : Int} {α : Type} {arr : List α} (hlen : arr.length = hi) (h0 : 0 ≤ n)
    (h : lo = hi ∨ n ≤ hi) : (if lo = hi then some arr else counted n hi arr) =
      some (arr.take (if lo = hi then lo else n.toNat)) := by
  by_cases e : lo = hi
  · rw [if_pos e, if_pos e, e, take_full hlen]
  · rw [if_neg e, if_neg e, counted, if_pos ⟨h0, h.resolve_left e⟩]

mutual
theorem validT_any : ∀ (t : CTy) (v : CVal) (p : List Nat) (err : ErrCode), Shaped t v → t.Fits → t.SizeFirst →
    Decides (validT p t v err) (∃ a, meaning t v = some a ∧ t.Sat a)
  | .int cls cons, v, p, err, hs, hf, _ => by
    simp only [Shaped] at hs
    obtain ⟨a, ha⟩ := Option.ne_none_iff_exists'.1 hs
    exact decides_meaning ha hf p err
  | .bool cons, v, p, err, hs, hf, _ => by
    simp only [Shaped] at hs
    obtain ⟨a, ha⟩ := Option.ne_none_iff_exists'.1 hs
    exact decides_meaning ha hf p err
  | .null, v, p, err, hs, hf, _ => by
    simp only [Shaped] at hs
    obtain ⟨a, ha⟩ := Option.ne_none_iff_exists'.1 hs
    exact decides_meaning ha hf p err
  | .enum items cons, v, p, err, hs, hf, _ => by
    simp only [Shaped] at hs
    obtain ⟨a, ha⟩ := Option.ne_none_iff_exists'.1 hs
    exact decides_meaning ha hf p err
  | .str lo hi al cons, v, p, err, hs, hf, _ => by
    simp only [Shaped] at hs
    obtain ⟨a, ha⟩ := Option.ne_none_iff_exists'.1 hs
    exact decides_meaning ha hf p err
  | .real cons, v, p, err, hs, hf, _ => by
    simp only [Shaped] at hs
    obtain ⟨a, ha⟩ := Option.ne_none_iff_exists'.1 hs
    exact decides_meaning ha hf p err
  | .oid rel cons, v, p, err, hs, hf, _ => by
    simp only [Shaped] at hs
    obtain ⟨a, ha⟩ := Option.ne_none_iff_exists'.1 hs
    exact decides_meaning ha hf p err
  | .octets lo hi cons, v, p, err, hs, hf, hg => by
    cases v <;> simp only [Shaped] at hs <;> try (simp [meaning] at hs; done)
    rename_i n arr
    obtain ⟨hlen, h0, h1⟩ := hs
    simp only [CTy.SizeFirst] at hg
    by_cases hk : lo = hi ∨ n ≤ hi
    · refine decides_meaning (a := .octets (arr.take (if lo = hi then lo else n.toNat))) ?_ hf p err
      simp only [meaning, hlen, if_true, meaning_of_count hlen h0 hk, Option.map_some]
    · have hne : lo ≠ hi := fun e => hk (.inl e)
      refine decides_false ?_ ?_
      · simp only [meaning, hlen, if_true, hne, if_false, counted]
        rw [if_neg (fun h => hk (.inr h.2))]; rfl
      · simp only [validT]
        exact count_too_large (hg.resolve_left hne) h0 h1 (fun h => hk (.inr h)) rfl
          (fun c => by simp only [acVC, CTy.actual, hne, if_false]) p err
  | .bits lo hi cons, v, p, err, hs, hf, hg => by
    cases v <;> simp only [Shaped] at hs <;> try (simp [meaning] at hs; done)
    rename_i n arr
    obtain ⟨hlen, h0, h1⟩ := hs
    simp only [CTy.SizeFirst] at hg
    by_cases hk : lo = hi ∨ n ≤ hi
    · refine decides_meaning (a := .bits ((bytesBits arr).take (if lo = hi then lo else n.toNat))) ?_ hf p err
      simp only [meaning, hlen, if_true]
      by_cases e : lo = hi
      · simp [e]
      · simp [e, counted, h0, hk.resolve_left e]
    · have hne : lo ≠ hi := fun e => hk (.inl e)
      refine decides_false ?_ ?_
      · simp only [meaning, hlen, if_true, hne, if_false, counted]
        rw [if_neg (fun h => hk (.inr h.2))]; rfl
      · simp only [validT]
        exact count_too_large (hg.resolve_left hne) h0 h1 (fun h => hk (.inr h)) rfl
          (fun c => by simp only [acVC, CTy.actual, hne, if_false]) p err
  | .seqOf lo hi t cons, v, p, err, hs, hf, hg => by
    cases v <;> simp only [Shaped] at hs <;> try (simp [meaning] at hs; done)
    rename_i n arr
    obtain ⟨hlen, h0, h1, hel⟩ := hs
    simp only [CTy.SizeFirst] at hg
    obtain ⟨hg, hgt⟩ := hg
    simp only [CTy.Fits] at hf
    simp only [validT]
    by_cases hk : lo = hi ∨ n ≤ hi
    · have hmean : meaning (.seqOf lo hi t cons) (.seqOf n arr) =
          ((arr.take (if lo = hi then lo else n.toNat)).mapM (meaning t)).map .seqOf := by
        simp only [meaning, hlen, if_true, meaning_of_count hlen h0 hk, Option.bind_some]
      have hcount : (if lo = hi then lo else n.toNat) ≤ hi := by split <;> omega
      have htake : arr.take (if lo = hi then lo else n.toNat) = (if lo = hi then arr else arr.take n.toNat) := by
        by_cases e : lo = hi
        · simp only [e, if_true]; exact take_full hlen
        · simp only [e, if_false]
      have hcons : ∀ xs : List AV, xs.length = (if lo = hi then lo else n.toNat) → ∀ err,
          Decides (checkCons p (consVC (.seqOf lo hi t cons) cons) (.seqOf n arr) err) (∀ c ∈ cons, c.Sat (.seqOf xs)) := by
        intro xs hxs err
        rcases hg with ⟨_, rfl⟩ | ⟨_, c, rfl⟩
        · exact ⟨true, err, rfl, by simp⟩
        · have hfit := hf.2 (.size c) (by simp)
          simp only [AC.Fits, CTy.actual, CTy.layout, CTy.capacity] at hfit
          unfold consVC
          simp only [List.map_cons, List.map_nil]
          refine (checkCons_tells p err (den_multiAnd (.single (P := c.Sat RLeaf.Sat ((xs.length : Nat) : Int)) ?_))).decides.congr ?_
          · simp only [acVC, CTy.actual]
            by_cases e : lo = hi
            · simp only [e, if_true] at hxs ⊢
              rw [hxs]
              exact hfit.2.1 hi (by simp [CTy.fixedSize, e])
            · simp only [e, if_false] at hxs ⊢
              rw [hxs]
              exact den_size (by simp only [getSize]; congr 1; omega) (by omega)
          · simp only [List.mem_singleton, forall_eq, AC.Sat, AV.size, Option.some.injEq]
            exact ⟨fun h => ⟨_, rfl, h⟩, fun ⟨m, e, h⟩ => by rw [e]; exact h⟩
      have hlenk : (arr.take (if lo = hi then lo else n.toNat)).length = (if lo = hi then lo else n.toNat) := by
        rw [List.length_take]; omega
      have hloop := checkLoop_decides (body := validT (p ++ [0]) t) (t := t) (arr := arr) (P := t.Sat)
        (if lo = hi then lo else n.toNat) 0 
      refine then_decides (P := ∀ c ∈ cons, c.Sat (.seqOf (List.replicate (if lo = hi then lo else n.toNat) .null)))
        (Q := ∃ xs, List.Forall₂ (fun w x => meaning t w = some x) (arr.take (if lo = hi then lo else n.toNat)) xs ∧ ∀ x ∈ xs, t.Sat x)
        (hcons _ (by simp) err) ?_ ?_
      · intro _ e
        simp only [checkElements]
        have := hloop e (by omega) (by
          intro w hw err
          rw [List.drop_zero, htake] at hw
          exact validT_any t w (p ++ [0]) err (hel w hw) hf.1 hgt)
        simpa using this
      · have hsat : ∀ xs : List AV, xs.length = (if lo = hi then lo else n.toNat) →
            ((∀ c ∈ cons, c.Sat (.seqOf (List.replicate (if lo = hi then lo else n.toNat) .null))) ↔ ∀ c ∈ cons, c.Sat (.seqOf xs)) := by
          intro xs hxs
          rcases hg with ⟨_, rfl⟩ | ⟨_, c, rfl⟩
          · simp
          · simp only [List.mem_singleton, forall_eq, AC.Sat, AV.size, List.length_replicate, hxs]
        simp only [hmean, CTy.Sat]
        constructor
        · rintro ⟨a, ha, h3, l, rfl, h4⟩
          rw [Option.map_eq_some_iff] at ha
          obtain ⟨xs, hxs, e⟩ := ha
          cases e
          rw [mapM_some_iff] at hxs
          exact ⟨(hsat _ (by rw [← hxs.length_eq, hlenk])).2 h3, _, hxs, h4⟩
        · rintro ⟨h3, xs, hxs, h4⟩
          exact ⟨.seqOf xs, by rw [mapM_some_iff.2 hxs]; rfl, (hsat _ (by rw [← hxs.length_eq, hlenk])).1 h3, xs, rfl, h4⟩
    · have hne : lo ≠ hi := fun e => hk (.inl e)
      have hb : BoundedBy hi cons := by
        rcases hg with ⟨e, _⟩ | ⟨e, _⟩
        · exact absurd e hne
        · exact e.resolve_left hne
      refine decides_false ?_ ?_
      · simp only [meaning, hlen, if_true, hne, if_false, counted]
        rw [if_neg (fun h => hk (.inr h.2))]; rfl
      · exact then_decides (Q := True) (count_too_large hb h0 h1 (fun h => hk (.inr h)) rfl
          (fun c => by simp only [acVC, CTy.actual, hne, if_false]) p err) (fun h => h.elim) (by simp)
  | .seq fs cons, v, p, err, hs, hf, hg => by
    cases v <;> simp only [Shaped] at hs <;> try (simp [meaning] at hs; done)
    rename_i l
    simp only [CTy.SizeFirst] at hg
    have hf' := hf
    simp only [CTy.Fits] at hf
    simp only [validT]
    have hfields := validFields_any fs p 0 l err (by simpa using hs) hf.1 hg
    simp only [List.drop_zero] at hfields
    by_cases hP : ∃ xs, meaningFields fs l = some xs ∧ fs.Sat xs
    · obtain ⟨xs, hx, hsat⟩ := hP
      have hm : meaning (.seq fs cons) (.seq l) = some (.seq xs) := by simp only [meaning, hx, Option.map_some]
      exact decides_meaning hm hf' p err
    · refine then_decides (Q := True) hfields (fun h => absurd h hP) ?_
      simp only [meaning, CTy.Sat, and_true]
      constructor
      · rintro ⟨a, ha, ⟨l', rfl, h3⟩, _⟩
        rw [Option.map_eq_some_iff] at ha
        obtain ⟨xs, hxs, e⟩ := ha
        cases e
        exact ⟨_, hxs, h3⟩
      · exact fun h => absurd h hP
  | .choice alts cons, v, p, err, hs, hf, hg => by
    cases v <;> simp only [Shaped] at hs <;> try (simp [meaning] at hs; done)
    rename_i k u
    simp only [CTy.SizeFirst] at hg
    obtain ⟨rfl, hg⟩ := hg
    simp only [CTy.Fits] at hf
    simp only [validT]
    refine then_decides (P := True) (Q := 0 < k ∧ ∃ x, meaningAlt alts (k.toNat - 1) u = some x ∧ alts.Sat (k.toNat - 1) x)
      ⟨true, err, rfl, by simp⟩ ?_ ?_
    · intro _ e
      dsimp only
      by_cases hk : 0 < k
      · rw [if_pos hk]
        exact (validAlt_any alts p 0 (k.toNat - 1) u e (hs hk) hf.1 hg).congr (by simp [hk])
      · rw [if_neg hk]
        exact ⟨false, some p, rfl, by simp [hk]⟩
    · simp only [meaning, CTy.Sat]
      constructor
      · rintro ⟨a, ha, _, i, v, rfl, h3⟩
        split at ha
        · rename_i hk
          rw [Option.map_eq_some_iff] at ha
          obtain ⟨x, hx, e⟩ := ha
          cases e
          exact ⟨trivial, hk, _, hx, h3⟩
        · cases ha
      · rintro ⟨_, hk, x, hx, h3⟩
        exact ⟨.choice (k.toNat - 1) x, by rw [if_pos hk, hx]; rfl, by simp, _, _, rfl, h3⟩
  | .ref t sz cons, v, p, err, hs, hf, hg => by
    simp only [Shaped] at hs
    simp only [CTy.SizeFirst] at hg
    have hf' := hf
    simp only [CTy.Fits] at hf
    by_cases hP : ∃ a, meaning t v = some a ∧ t.Sat a
    · obtain ⟨a, ha, _⟩ := hP
      exact decides_meaning (t := .ref t sz cons) (by simp only [meaning]; exact ha) hf' p err
    · simp only [validT]
      refine then_decides (Q := True) (validT_any t v (p ++ [0]) err hs hf.1 hg) (fun h => absurd h hP) ?_
      simp only [meaning, CTy.Sat, and_true]
      exact ⟨fun ⟨a, h1, h2, _⟩ => ⟨a, h1, h2⟩, fun h => absurd h hP⟩
theorem validFields_any : ∀ (fs : CFields) (p : List Nat) (i : Nat) (l : List (Bool × CVal)) (err : ErrCode),
    ShapedFields fs (l.drop i) → fs.Fits → fs.SizeFirst →
    Decides (validFieldsC p i fs (.seq l) err) (∃ xs, meaningFields fs (l.drop i) = some xs ∧ fs.Sat xs)
  | .nil, p, i, l, err, hs, hf, _ => by
    cases h : l.drop i with
    | nil => simp only [validFieldsC]; exact ⟨true, err, rfl, by simp [meaningFields, CFields.Sat]⟩
    | cons _ _ => rw [h] at hs; simp [ShapedFields] at hs
  | .cons o t rest, p, i, l, err, hs, hf, hg => by
    simp only [CFields.Fits] at hf
    simp only [CFields.SizeFirst] at hg
    have hi : i < l.length := by
      rcases Nat.lt_or_ge i l.length with h | h
      · exact h
      · rw [List.drop_eq_nil_of_le h] at hs; simp [ShapedFields] at hs
    rcases hev : l[i] with ⟨e, v⟩
    have hl : l[i]? = some (e, v) := by rw [List.getElem?_eq_getElem hi, hev]
    rw [List.drop_eq_getElem_cons hi, hev] at hs ⊢
    simp only [ShapedFields] at hs
    simp only [validFieldsC]
    have ih := fun err => validFields_any rest p (i + 1) l err hs.2 hf.2 hg.2
    by_cases hpres : o.MayBeAbsent → e = true
    · have hcond : (if o.hasBit = true then getExist i (.seq l) else pure true) = (pure true : M Bool) := by
        by_cases h : o.hasBit = true
        · rw [if_pos h, getExist_pure hl, hpres ((hasBit_iff o).1 h)]
        · rw [if_neg h]
      have ht := validT_any t v (p ++ [i]) err (hs.1 hpres) hf.1 hg.1
      have hm : meaningFields (.cons o t rest) ((e, v) :: l.drop (i + 1)) =
          (meaning t v).bind fun x => (meaningFields rest (l.drop (i + 1))).bind fun xs => some (some x :: xs) := by
        cases o <;> cases e <;> first | rfl | exact absurd (hpres trivial) (by simp)
      refine then_decides (P := ∃ a, meaning t v = some a ∧ t.Sat a) ?_ (fun _ e => ih e) ?_
      · rw [hcond, Mpure_bind, if_pos rfl, getComp_pure hl, Mpure_bind]
        exact ht
      · simp only [hm, Option.bind_eq_some_iff, Option.some.injEq]
        constructor
        · rintro ⟨xs, ⟨x, hx, ys, hys, rfl⟩, h3⟩
          simp only [CFields.Sat] at h3
          exact ⟨⟨x, hx, h3.1⟩, ys, hys, h3.2⟩
        · rintro ⟨⟨x, hx, h3⟩, ys, hys, h4⟩
          exact ⟨_, ⟨x, hx, ys, hys, rfl⟩, by simp only [CFields.Sat]; exact ⟨h3, h4⟩⟩
    · have hb : o.hasBit = true := by
        rw [hasBit_iff]
        exact Classical.byContradiction fun h => hpres fun h' => absurd h' h
      have he : e = false := by
        cases e
        · rfl
        · exact absurd (fun _ => rfl) hpres
      have hm : meaningFields (.cons o t rest) ((e, v) :: l.drop (i + 1)) =
          (meaningFields rest (l.drop (i + 1))).bind fun xs => some (none :: xs) := by
        subst he
        cases o <;> first | rfl | (simp [COpt.hasBit] at hb)
      have hfirst : Decides ((fun v err => do
        let e ← (if o.hasBit = true then getExist i v else pure true)
        if e = true then validT (p ++ [i]) t (← getComp i v) err else pure (true, err) : Check) (.seq l) err) True := by
        dsimp only
        rw [if_pos hb, getExist_pure hl, he, Mpure_bind]
        exact ⟨true, err, rfl, by simp⟩
      refine then_decides hfirst (fun _ e => ih e) ?_
      simp only [hm, Option.bind_eq_some_iff, Option.some.injEq, true_and]
      constructor
      · rintro ⟨xs, ⟨ys, hys, rfl⟩, h3⟩
        simp only [CFields.Sat] at h3
        exact ⟨ys, hys, h3⟩
      · rintro ⟨ys, hys, h4⟩
        exact ⟨_, ⟨ys, hys, rfl⟩, by simp only [CFields.Sat]; exact h4⟩
theorem validAlt_any : ∀ (alts : CAlts) (p : List Nat) (i k : Nat) (u : CVal) (err : ErrCode), ShapedAlt alts k u →
    alts.Fits → alts.SizeFirst → Decides (validAltC p i alts k u err) (∃ x, meaningAlt alts k u = some x ∧ alts.Sat k x)
  | .nil, p, i, k, u, err, _, _, _ => by
    simp only [validAltC]; exact ⟨false, some p, rfl, by simp [meaningAlt]⟩
  | .cons t rest, p, i, 0, u, err, hs, hf, hg => by
    simp only [ShapedAlt] at hs
    simp only [CAlts.Fits] at hf
    simp only [CAlts.SizeFirst] at hg
    simp only [validAltC, CAlts.Sat, meaningAlt]
    exact validT_any t u (p ++ [i]) err hs hf.1 hg.1
  | .cons t rest, p, i, k + 1, u, err, hs, hf, hg => by
    simp only [ShapedAlt] at hs
    simp only [CAlts.Fits] at hf
    simp only [CAlts.SizeFirst] at hg
    simp only [validAltC, CAlts.Sat, meaningAlt]
    exact validAlt_any rest p (i + 1) k u err hs hf.2 hg.2
end

end Asn1
