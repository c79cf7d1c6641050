import Verif.Proof.ValidVC
/-! Generated constraint checks find out whether the constraint holds. -/
namespace Asn1

/-! ## Layout -/

theorem resize_resize (s s' : Option (Nat × Nat)) (t : CTy) : ∃ s'', (t.resize s).resize s' = t.resize s'' := by
  rcases s' with _ | ⟨c, d⟩
  · exact ⟨s, by cases t.resize s <;> rfl⟩
  · refine ⟨some (c, d), ?_⟩
    rcases s with _ | ⟨a, b⟩ <;> cases t <;> rfl

theorem actual_resize : ∀ t : CTy, ∃ s, t.actual = t.layout.resize s
  | .ref t sz _ => by
    obtain ⟨s, h⟩ := actual_resize t
    rw [CTy.actual, CTy.layout, h]
    exact resize_resize s sz _
  | .int _ _ => ⟨none, rfl⟩
  | .bool _ => ⟨none, rfl⟩
  | .null => ⟨none, rfl⟩
  | .enum _ _ => ⟨none, rfl⟩
  | .octets _ _ _ => ⟨none, rfl⟩
  | .bits _ _ _ => ⟨none, rfl⟩
  | .str _ _ _ _ => ⟨none, rfl⟩
  | .oid _ _ => ⟨none, rfl⟩
  | .real _ => ⟨none, rfl⟩
  | .seq _ _ => ⟨none, rfl⟩
  | .seqOf _ _ _ _ => ⟨none, rfl⟩
  | .choice _ _ => ⟨none, rfl⟩

theorem meaning_layout : ∀ (t : CTy) (v : CVal), meaning t v = meaning t.layout v
  | .ref t _ _, v => by rw [CTy.layout, ← meaning_layout t v]; simp only [meaning]
  | .int _ _, _ => rfl
  | .bool _, _ => rfl
  | .null, _ => rfl
  | .enum _ _, _ => rfl
  | .octets _ _ _, _ => rfl
  | .bits _ _ _, _ => rfl
  | .str _ _ _ _, _ => rfl
  | .oid _ _, _ => rfl
  | .real _, _ => rfl
  | .seq _ _, _ => rfl
  | .seqOf _ _ _ _, _ => rfl
  | .choice _ _, _ => rfl

theorem layout_of_actual {t u : CTy} (h : t.actual = u) : ∃ s, u = t.layout.resize s := by
  obtain ⟨s, e⟩ := actual_resize t
  exact ⟨s, by rw [← h, e]⟩

theorem resize_cases (L : CTy) (s : Option (Nat × Nat)) : L.resize s = L ∨
    (∃ lo hi lo' hi' cons, L = .octets lo hi cons ∧ L.resize s = .octets lo' hi' cons) ∨
    (∃ lo hi lo' hi' cons, L = .bits lo hi cons ∧ L.resize s = .bits lo' hi' cons) ∨
    (∃ lo hi lo' hi' a cons, L = .str lo hi a cons ∧ L.resize s = .str lo' hi' a cons) ∨
    (∃ lo hi lo' hi' t cons, L = .seqOf lo hi t cons ∧ L.resize s = .seqOf lo' hi' t cons) := by
  rcases s with _ | ⟨a, b⟩ <;> cases L <;> simp [CTy.resize]

theorem layout_int {t : CTy} {cls cons} (h : t.actual = .int cls cons) : t.layout = .int cls cons := by
  obtain ⟨s, e⟩ := layout_of_actual h
  have := resize_cases t.layout s
  rw [← e] at this
  simpa [eq_comm] using this
theorem layout_bool {t : CTy} {cons} (h : t.actual = .bool cons) : t.layout = .bool cons := by
  obtain ⟨s, e⟩ := layout_of_actual h
  have := resize_cases t.layout s
  rw [← e] at this
  simpa [eq_comm] using this
theorem layout_enum {t : CTy} {items cons} (h : t.actual = .enum items cons) : t.layout = .enum items cons := by
  obtain ⟨s, e⟩ := layout_of_actual h
  have := resize_cases t.layout s
  rw [← e] at this
  simpa [eq_comm] using this
theorem layout_oid {t : CTy} {rel cons} (h : t.actual = .oid rel cons) : t.layout = .oid rel cons := by
  obtain ⟨s, e⟩ := layout_of_actual h
  have := resize_cases t.layout s
  rw [← e] at this
  simpa [eq_comm] using this
theorem layout_real {t : CTy} {cons} (h : t.actual = .real cons) : t.layout = .real cons := by
  obtain ⟨s, e⟩ := layout_of_actual h
  have := resize_cases t.layout s
  rw [← e] at this
  simpa [eq_comm] using this
theorem layout_seq {t : CTy} {fs cons} (h : t.actual = .seq fs cons) : t.layout = .seq fs cons := by
  obtain ⟨s, e⟩ := layout_of_actual h
  have := resize_cases t.layout s
  rw [← e] at this
  simpa [eq_comm] using this
theorem layout_choice {t : CTy} {alts cons} (h : t.actual = .choice alts cons) : t.layout = .choice alts cons := by
  obtain ⟨s, e⟩ := layout_of_actual h
  have := resize_cases t.layout s
  rw [← e] at this
  simpa [eq_comm] using this
theorem layout_octets {t : CTy} {lo hi cons} (h : t.actual = .octets lo hi cons) : ∃ lo' hi', t.layout = .octets lo' hi' cons := by
  obtain ⟨s, e⟩ := layout_of_actual h
  have := resize_cases t.layout s
  rw [← e] at this
  rcases this with h | ⟨a, b, c, d, e, h1, h2⟩ | ⟨a, b, c, d, e, h1, h2⟩ | ⟨a, b, c, d, e, f, h1, h2⟩ | ⟨a, b, c, d, e, f, h1, h2⟩
  · exact ⟨lo, hi, h.symm⟩
  · cases h2; exact ⟨_, _, h1⟩
  all_goals cases h2
theorem layout_bits {t : CTy} {lo hi cons} (h : t.actual = .bits lo hi cons) : ∃ lo' hi', t.layout = .bits lo' hi' cons := by
  obtain ⟨s, e⟩ := layout_of_actual h
  have := resize_cases t.layout s
  rw [← e] at this
  rcases this with h | ⟨a, b, c, d, e, h1, h2⟩ | ⟨a, b, c, d, e, h1, h2⟩ | ⟨a, b, c, d, e, f, h1, h2⟩ | ⟨a, b, c, d, e, f, h1, h2⟩
  · exact ⟨lo, hi, h.symm⟩
  · cases h2
  · cases h2; exact ⟨_, _, h1⟩
  all_goals cases h2
theorem layout_str {t : CTy} {lo hi a cons} (h : t.actual = .str lo hi a cons) : ∃ lo' hi', t.layout = .str lo' hi' a cons := by
  obtain ⟨s, e⟩ := layout_of_actual h
  have := resize_cases t.layout s
  rw [← e] at this
  rcases this with h | ⟨a, b, c, d, e, h1, h2⟩ | ⟨a, b, c, d, e, h1, h2⟩ | ⟨a, b, c, d, e, f, h1, h2⟩ | ⟨a, b, c, d, e, f, h1, h2⟩
  · exact ⟨lo, hi, h.symm⟩
  · cases h2
  · cases h2
  · cases h2; exact ⟨_, _, h1⟩
  · cases h2
theorem layout_seqOf {t : CTy} {lo hi e cons} (h : t.actual = .seqOf lo hi e cons) : ∃ lo' hi', t.layout = .seqOf lo' hi' e cons := by
  obtain ⟨s, e⟩ := layout_of_actual h
  have := resize_cases t.layout s
  rw [← e] at this
  rcases this with h | ⟨a, b, c, d, e, h1, h2⟩ | ⟨a, b, c, d, e, h1, h2⟩ | ⟨a, b, c, d, e, f, h1, h2⟩ | ⟨a, b, c, d, e, f, h1, h2⟩
  · exact ⟨lo, hi, h.symm⟩
  · cases h2
  · cases h2
  · cases h2
  · cases h2; exact ⟨_, _, h1⟩

/-! ## Inversion of `meaning` -/

theorem meaning_int {t : CTy} {v : CVal} {a : AV} {cls cons} (h : meaning t v = some a) (hl : t.layout = .int cls cons) :
    ∃ n, v = .int n ∧ a = .int n ∧ cls.min ≤ n ∧ n ≤ cls.max := by
  rw [meaning_layout, hl] at h
  cases v <;> simp only [meaning, reduceCtorEq] at h
  split at h
  · rename_i hh; cases h; exact ⟨_, rfl, rfl, hh⟩
  · cases h
theorem meaning_bool {t : CTy} {v : CVal} {a : AV} {cons} (h : meaning t v = some a) (hl : t.layout = .bool cons) :
    ∃ b, v = .bool b ∧ a = .bool b := by
  rw [meaning_layout, hl] at h
  cases v <;> simp only [meaning, reduceCtorEq] at h
  cases h; exact ⟨_, rfl, rfl⟩
theorem meaning_enum {t : CTy} {v : CVal} {a : AV} {items cons} (h : meaning t v = some a) (hl : t.layout = .enum items cons) :
    ∃ n, v = .enum n ∧ a = .enum n := by
  rw [meaning_layout, hl] at h
  cases v <;> simp only [meaning, reduceCtorEq] at h
  split at h
  · cases h; exact ⟨_, rfl, rfl⟩
  · cases h
theorem meaning_real {t : CTy} {v : CVal} {a : AV} {cons} (h : meaning t v = some a) (hl : t.layout = .real cons) :
    ∃ d, v = .real d ∧ a = .real d := by
  rw [meaning_layout, hl] at h
  cases v <;> simp only [meaning, reduceCtorEq] at h
  cases h; exact ⟨_, rfl, rfl⟩
theorem meaning_oid {t : CTy} {v : CVal} {a : AV} {rel cons} (h : meaning t v = some a) (hl : t.layout = .oid rel cons) :
    ∃ o : Oid, v = .oid o ∧ a = .oid (o.values.take o.nCount) ∧ o.values.length = 20 ∧ o.nCount ≤ 20 := by
  rw [meaning_layout, hl] at h
  cases v <;> simp only [meaning, reduceCtorEq] at h
  split at h
  · rename_i hh; cases h; exact ⟨_, rfl, rfl, hh⟩
  · cases h
theorem meaning_str {t : CTy} {v : CVal} {a : AV} {lo hi al cons} (h : meaning t v = some a) (hl : t.layout = .str lo hi al cons) :
    ∃ arr x, v = .str arr ∧ a = .str x ∧ arr.length = hi + 1 ∧ 0#8 ∈ arr ∧ (∀ c ∈ x, c.toNat < 128) ∧ x = arr.takeWhile (· ≠ 0#8) := by
  rw [meaning_layout, hl] at h
  cases v <;> simp only [meaning, reduceCtorEq] at h
  split at h
  · rename_i hh
    rw [Option.map_eq_some_iff] at h
    obtain ⟨x, hx, rfl⟩ := h
    exact ⟨_, x, rfl, rfl, hh, cString_eq hx⟩
  · cases h
theorem meaning_octets {t : CTy} {v : CVal} {a : AV} {lo hi cons} (h : meaning t v = some a) (hl : t.layout = .octets lo hi cons) :
    ∃ (n : Int) (arr : List Byte) (k : Nat), v = .octets n arr ∧ a = .octets (arr.take k) ∧ arr.length = hi ∧ k ≤ hi ∧
      (lo = hi → k = hi) ∧ (lo ≠ hi → n = k) := by
  rw [meaning_layout, hl] at h
  cases v <;> simp only [meaning, reduceCtorEq] at h
  rename_i n arr
  split at h
  · rename_i hh
    rw [Option.map_eq_some_iff] at h
    obtain ⟨x, hx, rfl⟩ := h
    have hx' : (if lo = hi then some (arr.take hi) else counted n hi arr) = some x := by rw [take_full hh]; exact hx
    obtain ⟨k, h1, h2, h3, h4, h5⟩ := count_cases (by omega) hx'
    exact ⟨n, arr, k, rfl, by rw [h2], hh, h1, h4, h5⟩
  · cases h
theorem meaning_bits {t : CTy} {v : CVal} {a : AV} {lo hi cons} (h : meaning t v = some a) (hl : t.layout = .bits lo hi cons) :
    ∃ (n : Int) (arr : List Byte) (k : Nat), v = .bits n arr ∧ a = .bits ((bytesBits arr).take k) ∧ arr.length = (hi + 7) / 8 ∧ k ≤ hi ∧
      (lo = hi → k = hi) ∧ (lo ≠ hi → n = k) := by
  rw [meaning_layout, hl] at h
  cases v <;> simp only [meaning, reduceCtorEq] at h
  rename_i n arr
  split at h
  · rename_i hh
    rw [Option.map_eq_some_iff] at h
    obtain ⟨x, hx, rfl⟩ := h
    obtain ⟨k, h1, h2, h3, h4, h5⟩ := count_cases (by rw [bytesBits_length]; omega) hx
    exact ⟨n, arr, k, rfl, by rw [h2], hh, h1, h4, h5⟩
  · cases h
theorem meaning_seqOf {t : CTy} {v : CVal} {a : AV} {lo hi e cons} (h : meaning t v = some a) (hl : t.layout = .seqOf lo hi e cons) :
    ∃ (n : Int) (arr : List CVal) (k : Nat) (xs : List AV), v = .seqOf n arr ∧ a = .seqOf xs ∧ arr.length = hi ∧ k ≤ hi ∧
      (lo = hi → k = hi) ∧ (lo ≠ hi → n = k) ∧ List.Forall₂ (fun w x => meaning e w = some x) (arr.take k) xs := by
  rw [meaning_layout, hl] at h
  cases v <;> simp only [meaning, reduceCtorEq] at h
  rename_i n arr
  split at h
  · rename_i hh
    rw [Option.map_eq_some_iff] at h
    obtain ⟨xs, hx, rfl⟩ := h
    rw [Option.bind_eq_some_iff] at hx
    obtain ⟨l, hx, hm⟩ := hx
    have hx' : (if lo = hi then some (arr.take hi) else counted n hi arr) = some l := by rw [take_full hh]; exact hx
    obtain ⟨k, h1, h2, h3, h4, h5⟩ := count_cases (by omega) hx'
    rw [mapM_some_iff, h2] at hm
    exact ⟨n, arr, k, xs, rfl, rfl, hh, h1, h4, h5, hm⟩
  · cases h
theorem meaning_seq {t : CTy} {v : CVal} {a : AV} {fs cons} (h : meaning t v = some a) (hl : t.layout = .seq fs cons) :
    ∃ l xs, v = .seq l ∧ a = .seq xs ∧ meaningFields fs l = some xs := by
  rw [meaning_layout, hl] at h
  cases v <;> simp only [meaning, reduceCtorEq, Option.map_eq_some_iff] at h
  obtain ⟨x, hx, rfl⟩ := h
  exact ⟨_, x, rfl, rfl, hx⟩
theorem meaning_choice {t : CTy} {v : CVal} {a : AV} {alts cons} (h : meaning t v = some a) (hl : t.layout = .choice alts cons) :
    ∃ (k : Nat) (u : CVal) (x : AV), v = .choice ((k : Int) + 1) u ∧ a = .choice k x ∧ meaningAlt alts k u = some x := by
  rw [meaning_layout, hl] at h
  cases v <;> simp only [meaning, reduceCtorEq] at h
  rename_i k u
  split at h
  · rw [Option.map_eq_some_iff] at h
    obtain ⟨x, hx, rfl⟩ := h
    refine ⟨k.toNat - 1, u, x, ?_, rfl, hx⟩
    congr 1; omega
  · cases h

/-- Component number `i`. -/
theorem meaningFields_get : ∀ {fs : CFields} {l : List (Bool × CVal)} {xs : List (Option AV)} {i : Nat} {o : COpt} {t : CTy},
    meaningFields fs l = some xs → fs.get i = some (o, t) →
    ∃ e v, l[i]? = some (e, v) ∧ ((o.hasBit = false ∨ e = true) → ∃ x, xs[i]? = some (some x) ∧ meaning t v = some x) ∧
      (o.hasBit = true → e = false → xs[i]? = some none)
  | .nil, l, xs, i, o, t, hm, hg => by simp [CFields.get] at hg
  | .cons o' t' rest, l, xs, i, o, t, hm, hg => by
    cases l with
    | nil => simp [meaningFields] at hm
    | cons p vs =>
      obtain ⟨e, v⟩ := p
      cases i with
      | zero =>
        simp only [CFields.get, Option.some.injEq, Prod.mk.injEq] at hg
        obtain ⟨rfl, rfl⟩ := hg
        refine ⟨e, v, rfl, ?_⟩
        cases o' <;> cases e <;>
          simp only [meaningFields, Option.bind_eq_bind, Option.bind_eq_some_iff, Option.some.injEq] at hm <;>
          first
          | (obtain ⟨x0, hx0, xs, hxs, rfl⟩ := hm; simp [COpt.hasBit, hx0])
          | (obtain ⟨xs, hxs, rfl⟩ := hm; simp [COpt.hasBit])
      | succ i =>
        simp only [CFields.get] at hg
        cases o' <;> cases e <;>
          simp only [meaningFields, Option.bind_eq_bind, Option.bind_eq_some_iff, Option.some.injEq] at hm <;>
          first
          | (obtain ⟨x0, hx0, xs, hxs, rfl⟩ := hm
             simpa using meaningFields_get hxs hg)
          | (obtain ⟨xs, hxs, rfl⟩ := hm
             simpa using meaningFields_get hxs hg)

theorem meaningAlt_get : ∀ {alts : CAlts} {i : Nat} {u : CVal} {x : AV} {t : CTy}, meaningAlt alts i u = some x →
    alts.get i = some t → meaning t u = some x
  | .nil, _, _, _, _, hm, _ => by simp [meaningAlt] at hm
  | .cons t' _, 0, u, x, t, hm, hg => by
    simp only [CAlts.get, Option.some.injEq] at hg
    subst hg
    simpa [meaningAlt] using hm
  | .cons _ rest, i + 1, u, x, t, hm, hg => by
    simp only [CAlts.get] at hg
    simp only [meaningAlt] at hm
    exact meaningAlt_get hm hg

/-! ## Bits of a literal -/

theorem packBits_spec : ∀ w : List Bool, w.length ≤ 8 * (packBits w).length ∧ (bytesBits (packBits w)).take w.length = w
  | [] => by simp [packBits]
  | [a] => by cases a <;> decide
  | [a, b] => by cases a <;> cases b <;> decide
  | [a, b, c] => by cases a <;> cases b <;> cases c <;> decide
  | [a, b, c, d] => by cases a <;> cases b <;> cases c <;> cases d <;> decide
  | [a, b, c, d, e] => by cases a <;> cases b <;> cases c <;> cases d <;> cases e <;> decide
  | [a, b, c, d, e, f] => by cases a <;> cases b <;> cases c <;> cases d <;> cases e <;> cases f <;> decide
  | [a, b, c, d, e, f, g] => by
    cases a <;> cases b <;> cases c <;> cases d <;> cases e <;> cases f <;> cases g <;> decide
  | a :: b :: c :: d :: e :: f :: g :: h :: rest => by
    have ih := packBits_spec rest
    have hb : byteBits (BitVec.ofNat 8 (128 * a.toNat + 64 * b.toNat + 32 * c.toNat + 16 * d.toNat + 8 * e.toNat + 4 * f.toNat
      + 2 * g.toNat + h.toNat)) = [a, b, c, d, e, f, g, h] := by
      cases a <;> cases b <;> cases c <;> cases d <;> cases e <;> cases f <;> cases g <;> cases h <;> decide
    rw [packBits]
    refine ⟨by simp only [List.length_cons]; omega, ?_⟩
    rw [bytesBits_cons, hb]
    simp only [List.length_cons, List.cons_append, List.nil_append, List.take_succ_cons, ih.2]

end Asn1
