import Verif.Proof.Object
import Verif.Proof.Equal
/-!
# C94: a value that passes the check can be encoded
-/
namespace Asn1

theorem forall₂_right {α β : Type} {R : α → β → Prop} : ∀ {l : List α} {m : List β}, List.Forall₂ R l m → ∀ y ∈ m, ∃ x ∈ l, R x y
  | _, _, .nil, y, hy => by simp at hy
  | _, _, .cons h t, y, hy => by
    rcases List.mem_cons.1 hy with rfl | hy
    · exact ⟨_, List.mem_cons_self, h⟩
    · obtain ⟨x, hx, hr⟩ := forall₂_right t y hy
      exact ⟨x, List.mem_cons_of_mem _ hx, hr⟩

/-- The chosen elements of an array. -/
theorem elems_some {lo hi : Nat} {t : CTy} {cons : List AC} {n : Int} {arr : List CVal} {a : AV}
    (hm : meaning (.seqOf lo hi t cons) (.seqOf n arr) = some a) :
    arr.length = hi ∧ (lo ≠ hi → 0 ≤ n ∧ n ≤ hi) ∧ ∃ l, a = .seqOf l ∧
      List.Forall₂ (fun v x => meaning t v = some x) (if lo = hi then arr else arr.take n.toNat) l := by
  simp only [meaning] at hm
  split at hm
  · rename_i hl
    simp only [Option.map_eq_some_iff, Option.bind_eq_some_iff] at hm
    obtain ⟨l, ⟨m, h1, h2⟩, rfl⟩ := hm
    by_cases e : lo = hi
    · rw [if_pos e] at h1 ⊢
      simp only [Option.some.injEq] at h1
      subst h1
      exact ⟨hl, fun h => absurd e h, l, rfl, mapM_some_iff.1 h2⟩
    · rw [if_neg e] at h1 ⊢
      obtain ⟨h3, h4, rfl⟩ := counted_some h1
      exact ⟨hl, fun _ => ⟨h3, h4⟩, l, rfl, mapM_some_iff.1 h2⟩
  · simp at hm

theorem both {P : AC → Prop} {l m : List AC} (h1 : ∀ c ∈ l, P c) (h2 : ∀ c ∈ m, P c) : ∀ c ∈ l ++ m, P c :=
  fun c hc => (List.mem_append.1 hc).elim (h1 c) (h2 c)

mutual
theorem valid_in : ∀ (t : CTy) (sz : Option (Nat × Nat)) (ex : List AC) (v : CVal) (a : AV), meaning t v = some a → t.Sat a →
    (∀ c ∈ ex, c.Sat a) → ComputedIn sz ex t → CodableIn ex t a → Valid (uperIn sz ex t) (toVal t a)
  | .int cls cons, sz, ex, v, a, hm, hs, hex, hc, hk => by
    cases v <;> simp only [meaning, reduceCtorEq] at hm
    split at hm <;> simp only [reduceCtorEq, Option.some.injEq] at hm
    subst hm
    simp only [ComputedIn] at hc
    obtain ⟨_, cs, r, h1, h2, h3⟩ := hc
    simp only [CTy.Sat] at hs
    simp only [CodableIn] at hk
    have hr : intRangeOf (cons ++ ex) = some r := by rw [intRangeOf, h1]; exact h2
    simp only [uperIn, toVal, hr, Option.getD_some, Valid]
    exact ⟨intRange_of_sat h1 h2 h3 (both hs hex), hk r hr⟩
  | .bool _, sz, ex, v, a, hm, _, hex, _, _ => by
    cases v <;> simp only [meaning, reduceCtorEq, Option.some.injEq] at hm
    subst hm
    simp [uperIn, toVal, Valid]
  | .null, sz, ex, v, a, hm, _, hex, _, _ => by
    cases v <;> simp only [meaning, reduceCtorEq, Option.some.injEq] at hm
    subst hm
    simp [uperIn, toVal, Valid]
  | .enum items cons, sz, ex, v, a, hm, hs, hex, hc, _ => by
    cases v <;> simp only [meaning, reduceCtorEq] at hm
    split at hm <;> simp only [reduceCtorEq, Option.some.injEq] at hm
    rename_i hv
    subst hm
    simp only [CTy.Sat] at hs
    simp only [ComputedIn] at hc
    simp only [uperIn, toVal, Valid]
    exact items_of_sat hc hv (both hs hex)
  | .octets lo hi cons, sz, ex, v, a, hm, hs, hex, hc, _ => by
    cases v <;> simp only [meaning, reduceCtorEq] at hm
    split at hm <;> simp only [reduceCtorEq, Option.map_eq_some_iff] at hm
    obtain ⟨l, _, rfl⟩ := hm
    simp only [CTy.Sat] at hs
    simp only [ComputedIn] at hc
    obtain ⟨cs, h1, h2, hu, h3, _⟩ := hc
    simp only [uperIn, toVal, Valid]
    exact octets_of_sat h1 h2 hu h3 (both hs hex)
  | .bits lo hi cons, sz, ex, v, a, hm, hs, hex, hc, _ => by
    cases v <;> simp only [meaning, reduceCtorEq] at hm
    split at hm <;> simp only [reduceCtorEq, Option.map_eq_some_iff] at hm
    obtain ⟨l, _, rfl⟩ := hm
    simp only [CTy.Sat] at hs
    simp only [ComputedIn] at hc
    obtain ⟨cs, h1, h2, hu, h3, _⟩ := hc
    simp only [uperIn, toVal, Valid]
    have := bits_of_sat h1 h2 hu h3 (both hs hex)
    exact ⟨this.1, this.2, this.1, this.2, l, rfl, packed_packBits l⟩
  | .str lo hi al cons, sz, ex, v, a, hm, hs, hex, hc, _ => by
    cases v <;> simp only [meaning, reduceCtorEq] at hm
    split at hm <;> simp only [reduceCtorEq, Option.map_eq_some_iff] at hm
    obtain ⟨l, hl, rfl⟩ := hm
    obtain ⟨_, h128, hz⟩ := cString_some hl
    simp only [CTy.Sat] at hs
    simp only [ComputedIn] at hc
    obtain ⟨h0, cs, al', h1, h2, hu, h3, h4⟩ := hc
    simp only [uperIn, toVal, Valid]
    have := str_of_sat h1 h2 hu h3 h4 h128 (both hs hex)
    have hal : (if ex.isEmpty = true then al else (strChars (cons ++ ex)).getD al) = al'.map (BitVec.ofNat 8) := by
      have e : strChars (cons ++ ex) = some (al'.map (BitVec.ofNat 8)) := by simp [strChars, h1, h4]
      split
      · rename_i hx
        rw [List.isEmpty_iff.1 hx, List.append_nil, h0] at e
        exact Option.some.inj e
      · rw [e]; rfl
    rw [hal]
    exact ⟨this.1.1, this.1.2, fun c hc => ⟨this.2 c hc, hz c hc⟩⟩
  | .oid rel cons, sz, ex, v, a, hm, hs, hex, _, _ => by
    cases v <;> simp only [meaning, reduceCtorEq] at hm
    split at hm <;> simp only [reduceCtorEq, Option.some.injEq] at hm
    rename_i o ho
    subst hm
    simp only [CTy.Sat, AV.oid.injEq] at hs
    obtain ⟨⟨l, hl, hok⟩, _⟩ := hs
    simp only [toVal]
    have hlen : l.length ≤ 20 := by rw [← hl, List.length_take]; omega
    rw [hl]
    unfold OidArcsOk at hok
    cases rel
    · simp only [Bool.false_eq_true, if_false] at hok
      obtain ⟨x, y, rest, rfl, hx, hy⟩ := hok
      simp only [uperIn, Bool.false_eq_true, if_false, Valid]
      simp only [List.length_cons] at hlen
      exact ⟨x, y, rest, rfl, hx, hy, by omega⟩
    · simp only [if_true] at hok
      simp only [uperIn, if_true, Valid]
      exact ⟨l, rfl, by cases l <;> simp_all, hlen⟩
  | .real cons, sz, ex, v, a, hm, hs, hex, hc, hk => by
    cases v <;> simp only [meaning, reduceCtorEq, Option.some.injEq] at hm
    subst hm
    simp only [CTy.Sat] at hs
    simp only [ComputedIn] at hc
    simp only [CodableIn] at hk
    simp only [uperIn, toVal, Valid]
    exact ⟨real_of_sat hc (both hs hex), hk⟩
  | .seq fs cons, sz, ex, v, a, hm, hs, hex, hc, hk => by
    cases v <;> simp only [meaning, reduceCtorEq] at hm
    simp only [Option.map_eq_some_iff] at hm
    obtain ⟨xs, hx, rfl⟩ := hm
    simp only [CTy.Sat, AV.seq.injEq] at hs
    obtain ⟨⟨_, rfl, hs⟩, _⟩ := hs
    simp only [ComputedIn] at hc
    simp only [CodableIn] at hk
    simp only [uperIn, toVal, Valid]
    exact validFields_of_sat fs _ xs hx hs hc.2 hk
  | .seqOf lo hi t cons, sz, ex, v, a, hm, hs, hex, hc, hk => by
    cases v with
    | seqOf n arr =>
      obtain ⟨_, _, l, rfl, hf⟩ := elems_some hm
      simp only [CTy.Sat, AV.seqOf.injEq] at hs
      obtain ⟨hs, _, rfl, hse⟩ := hs
      simp only [ComputedIn] at hc
      obtain ⟨⟨cs, h1, h2, hu, h3, _⟩, hct⟩ := hc
      simp only [CodableIn] at hk
      simp only [uperIn, toVal, Valid, List.length_map, List.mem_map]
      have := elems_of_sat h1 h2 hu h3 (both (fun c hc => hs c (sizeCons_sub cons c hc)) hex)
      refine ⟨this.1, this.2, ?_⟩
      rintro _ ⟨x, hx, rfl⟩
      obtain ⟨w, _, hw⟩ := forall₂_right hf x hx
      exact valid_in t none [] w x hw (hse x hx) (by simp) hct (hk x hx)
    | _ => simp [meaning] at hm
  | .choice alts cons, sz, ex, v, a, hm, hs, hex, hc, hk => by
    cases v <;> simp only [meaning, reduceCtorEq] at hm
    split at hm <;> simp only [reduceCtorEq, Option.map_eq_some_iff] at hm
    obtain ⟨x, hx, rfl⟩ := hm
    simp only [CTy.Sat, AV.choice.injEq] at hs
    obtain ⟨_, _, _, ⟨rfl, rfl⟩, hs⟩ := hs
    simp only [ComputedIn] at hc
    simp only [CodableIn] at hk
    simp only [uperIn, toVal, Valid]
    exact validAlt_of_sat alts _ _ x hx hs hc.2 hk
  | .ref t size cons, sz, ex, v, a, hm, hs, hex, hc, hk => by
    simp only [meaning] at hm
    simp only [CTy.Sat] at hs
    simp only [ComputedIn] at hc
    simp only [CodableIn] at hk
    have := valid_in t (sz.or size) (cons ++ ex) v a hm hs.1 (both hs.2 hex) hc hk
    simp only [uperIn, toVal]
    split
    · simpa only [Valid] using this
    · exact this
theorem validFields_of_sat : ∀ (fs : CFields) (vs : List (Bool × CVal)) (xs : List (Option AV)), meaningFields fs vs = some xs →
    fs.Sat xs → ComputedFields fs → CodableFields fs xs → ValidFields (uperFields fs) (toValFields fs xs)
  | .nil, vs, xs, hm, _, _, _ => by
    cases vs <;> simp only [meaningFields, reduceCtorEq, Option.some.injEq] at hm
    subst hm
    simp [uperFields, toValFields, ValidFields]
  | .cons o t rest, [], xs, hm, _, _, _ => by simp [meaningFields] at hm
  | .cons o t rest, (e, v) :: vs, xs, hm, hs, hc, hk => by
    simp only [ComputedFields] at hc
    have some_case : ∀ x ys, meaning t v = some x → meaningFields rest vs = some ys → xs = some x :: ys →
        Valid (uperIn none [] t) (toVal t x) ∧ ValidFields (uperFields rest) (toValFields rest ys) ∧ o.markedAbsent = false := by
      rintro x ys h1 h2 rfl
      simp only [CFields.Sat] at hs
      simp only [CodableFields] at hk
      exact ⟨valid_in t none [] v x h1 hs.1 (by simp) hc.1 hk.2.1, validFields_of_sat rest vs ys h2 hs.2 hc.2 hk.2.2, hk.1⟩
    have none_case : ∀ ys, meaningFields rest vs = some ys → xs = none :: ys →
        ValidFields (uperFields rest) (toValFields rest ys) ∧ o.markedPresent = false := by
      rintro ys h2 rfl
      simp only [CFields.Sat] at hs
      simp only [CodableFields] at hk
      exact ⟨validFields_of_sat rest vs ys h2 hs hc.2 hk.2, hk.1⟩
    cases o <;> cases e <;>
      simp only [meaningFields, Option.bind_eq_bind, Option.bind_eq_some_iff, Option.some.injEq] at hm <;>
      first
        | (obtain ⟨x, hx, ys, hys, rfl⟩ := hm
           obtain ⟨h1, h2, h3⟩ := some_case x ys hx hys rfl
           simp_all [uperFields, toValFields, ValidFields, COpt.toOpt, COpt.markedAbsent, COpt.markedPresent]; done)
        | (obtain ⟨ys, hys, rfl⟩ := hm
           obtain ⟨h1, h2⟩ := none_case ys hys rfl
           simp_all [uperFields, toValFields, ValidFields, COpt.toOpt, COpt.markedAbsent, COpt.markedPresent]; done)
theorem validAlt_of_sat : ∀ (alts : CAlts) (i : Nat) (v : CVal) (x : AV), meaningAlt alts i v = some x →
    alts.Sat i x → ComputedAlts alts → CodableAlt alts i x → ValidAlt (uperAlts alts) i (toValAlt alts i x)
  | .nil, _, _, _, hm, _, _, _ => by simp [meaningAlt] at hm
  | .cons t _, 0, v, x, hm, hs, hc, hk => by
    simp only [meaningAlt] at hm
    simp only [CAlts.Sat] at hs
    simp only [ComputedAlts] at hc
    simp only [CodableAlt] at hk
    simp only [uperAlts, toValAlt, ValidAlt]
    exact valid_in t none [] v x hm hs (by simp) hc.1 hk
  | .cons _ rest, i + 1, v, x, hm, hs, hc, hk => by
    simp only [meaningAlt] at hm
    simp only [CAlts.Sat] at hs
    simp only [ComputedAlts] at hc
    simp only [CodableAlt] at hk
    simp only [uperAlts, toValAlt, ValidAlt]
    exact validAlt_of_sat rest i v x hm hs hc.2 hk
end

theorem valid_of_sat (t : CTy) (v : CVal) (a : AV) (hm : meaning t v = some a) (hs : t.Sat a) (hc : Computed t) (hk : Codable t a) :
    Valid (uperTy t) (toVal t a) :=
  valid_in t none [] v a hm hs (by simp) hc hk

end Asn1
