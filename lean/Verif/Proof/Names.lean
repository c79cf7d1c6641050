import Verif.Spec.Names
/-!
# Lemmas on the choice of type names
-/
namespace Asn1

/-! ## The part behind the last underscore -/

theorem lastPart_none {l : CName} : lastPart l = none ↔ '_' ∉ l := by
  induction l with
  | nil => simp [lastPart]
  | cons c cs ih =>
    unfold lastPart
    cases h : lastPart cs with
    | some p => simp only [reduceCtorEq, false_iff, List.mem_cons, not_or, not_and, Classical.not_not]; intro _; exact Classical.byContradiction fun hn => by rw [ih.mpr hn] at h; cases h
    | none =>
      have := ih.mp h
      by_cases hc : c = '_'
      · simp [hc]
      · simp only [hc, if_false, List.mem_cons, not_or, true_iff]; exact ⟨fun h => hc h.symm, this⟩

theorem lastPart_some {l r s : CName} : lastPart l = some (r, s) ↔ l = r ++ '_' :: s ∧ '_' ∉ s := by
  induction l generalizing r s with
  | nil => simp [lastPart]
  | cons c cs ih =>
    unfold lastPart
    cases h : lastPart cs with
    | some p =>
      obtain ⟨r', s'⟩ := p
      have h' := ih.mp h
      simp only [Option.some.injEq, Prod.mk.injEq]
      constructor
      · rintro ⟨rfl, rfl⟩; exact ⟨by rw [h'.1]; rfl, h'.2⟩
      · rintro ⟨h1, h2⟩
        cases r with
        | nil =>
          simp only [List.nil_append, List.cons.injEq] at h1
          exact absurd (by rw [← h1.2, h'.1]; simp) h2
        | cons d r =>
          simp only [List.cons_append, List.cons.injEq] at h1
          have := (ih (r := r) (s := s)).mpr ⟨h1.2, h2⟩
          rw [h] at this; cases this; exact ⟨by rw [h1.1], rfl⟩
    | none =>
      have hn := lastPart_none.mp h
      simp only
      by_cases hc : c = '_'
      · subst hc
        simp only [if_true]
        simp only [Option.some.injEq, Prod.mk.injEq]
        constructor
        · rintro ⟨rfl, rfl⟩; exact ⟨rfl, hn⟩
        · rintro ⟨h1, h2⟩
          cases r with
          | nil => simp only [List.nil_append, List.cons.injEq] at h1; exact ⟨rfl, h1.2⟩
          | cons d r => simp only [List.cons_append, List.cons.injEq] at h1; exact absurd (by rw [h1.2]; simp) hn
      · simp only [hc, if_false, reduceCtorEq, false_iff, not_and]
        intro h1
        cases r with
        | nil => simp only [List.nil_append, List.cons.injEq] at h1; exact absurd h1.1 hc
        | cons d r => simp only [List.cons_append, List.cons.injEq] at h1; exact absurd (by rw [h1.2]; simp) hn

/-! ## Numbers -/

theorem parseNat_toDigits (n : Nat) : parseNat (Nat.toDigits 10 n) = some n := by
  unfold parseNat
  rw [if_pos, Nat.ofDigitChars_ten_toDigits]
  refine ⟨Nat.toDigits_ne_nil, ?_⟩
  rw [List.all_eq_true]
  intro c hc; exact Nat.isDigit_of_mem_toDigits (by decide) (by decide) hc

theorem toDigits_cons (n : Nat) : ∃ c l, Nat.toDigits 10 n = c :: l ∧ c.isDigit := by
  cases h : Nat.toDigits 10 n with
  | nil => exact absurd h Nat.toDigits_ne_nil
  | cons c l => exact ⟨c, l, rfl, Nat.isDigit_of_mem_toDigits (b := 10) (n := n) (by decide) (by decide) (by rw [h]; simp)⟩

/-- The range of 32-bit numbers. -/
def InInt32 (v : Int) : Prop := -2147483648 ≤ v ∧ v ≤ 2147483647

theorem parseInt32_digits {c : Char} {l : CName} (h : c.isDigit) :
    parseInt32 (c :: l) = (parseNat (c :: l)).bind fun n => if n ≤ 2147483647 then some (n : Int) else none := by
  unfold parseInt32
  split
  · rename_i heq; cases heq; simp at h
  · rename_i heq; cases heq; simp at h
  · rfl

theorem parseInt32_intText {v : Int} (h : InInt32 v) : parseInt32 (intText v) = some v := by
  unfold InInt32 at h
  unfold intText
  split
  · rename_i hv
    simp only [parseInt32, parseNat_toDigits, Option.bind_some]
    rw [if_pos (by omega)]; congr 1; omega
  · rename_i hv
    obtain ⟨c, l, h1, h2⟩ := toDigits_cons v.natAbs
    rw [h1, parseInt32_digits h2, ← h1, parseNat_toDigits, Option.bind_some, if_pos (by omega)]; congr 1; omega

theorem intText_underscore (v : Int) : '_' ∉ intText v := by
  unfold intText
  split
  · simp [Nat.underscore_not_in_toDigits]
  · exact Nat.underscore_not_in_toDigits

theorem bind_range {o : Option Nat} {k : Nat} {f : Nat → Int} {v : Int} (h : (o.bind fun n => if n ≤ k then some (f n) else none) = some v) :
    ∃ n, n ≤ k ∧ v = f n := by
  cases o with
  | none => cases h
  | some n =>
    rw [Option.bind_some] at h
    split at h
    · rename_i hn; cases h; exact ⟨n, hn, rfl⟩
    · cases h

theorem parseInt32_range {l : CName} {v : Int} (h : parseInt32 l = some v) : InInt32 v := by
  unfold InInt32
  unfold parseInt32 at h
  split at h
  all_goals (obtain ⟨n, hn, rfl⟩ := bind_range h; omega)

theorem wrapInc_range {v : Int} (h : InInt32 v) : InInt32 (wrapInc v) := by
  unfold InInt32 at *; unfold wrapInc; split <;> omega

/-- The name without its number. -/
def nameStem (n : CName) : CName :=
  match lastPart n with
  | none => n
  | some (r, l) =>
    match parseInt32 l with
    | some _ => r
    | none => n

/-- The number at the end of the name, 0 if there is none. -/
def nameNum (n : CName) : Int :=
  match lastPart n with
  | none => 0
  | some (_, l) =>
    match parseInt32 l with
    | some v => v
    | none => 0

theorem nameNum_range (n : CName) : InInt32 (nameNum n) := by
  unfold nameNum
  split
  · unfold InInt32; omega
  · split
    · rename_i h; exact parseInt32_range h
    · unfold InInt32; omega

theorem nextCount_eq (n : CName) : nextCount n = nameStem n ++ '_' :: intText (wrapInc (nameNum n)) := by
  unfold nextCount nameStem nameNum
  cases h : lastPart n with
  | none => simp only; rfl
  | some p =>
    obtain ⟨r, l⟩ := p
    simp only
    cases hp : parseInt32 l with
    | none => simp only; rfl
    | some v => rfl

theorem lastPart_numbered (r : CName) (v : Int) : lastPart (r ++ '_' :: intText v) = some (r, intText v) :=
  lastPart_some.mpr ⟨rfl, intText_underscore v⟩

theorem nameStem_numbered (r : CName) {v : Int} (h : InInt32 v) : nameStem (r ++ '_' :: intText v) = r := by
  simp only [nameStem, lastPart_numbered, parseInt32_intText h]

theorem nameNum_numbered (r : CName) {v : Int} (h : InInt32 v) : nameNum (r ++ '_' :: intText v) = v := by
  simp only [nameNum, lastPart_numbered, parseInt32_intText h]

theorem nameStem_next (n : CName) : nameStem (nextCount n) = nameStem n := by
  rw [nextCount_eq, nameStem_numbered _ (wrapInc_range (nameNum_range n))]

theorem nameNum_next (n : CName) : nameNum (nextCount n) = wrapInc (nameNum n) := by
  rw [nextCount_eq, nameNum_numbered _ (wrapInc_range (nameNum_range n))]

/-! ## Counting on -/

/-- Counting on several times. -/
def nextCounts : Nat → CName → CName
  | 0, n => n
  | k + 1, n => nextCounts k (nextCount n)

theorem wrapInc_eq {v : Int} (h : InInt32 v) : wrapInc v = (v + 2147483649) % 4294967296 - 2147483648 := by
  unfold InInt32 at h; unfold wrapInc; split <;> omega

theorem nameNum_nextCounts : ∀ (k : Nat) (n : CName), nameNum (nextCounts k n) = (nameNum n + 2147483648 + k) % 4294967296 - 2147483648
  | 0, n => by have := nameNum_range n; unfold InInt32 at this; simp only [nextCounts]; omega
  | k + 1, n => by
    have h := nameNum_range n
    rw [nextCounts, nameNum_nextCounts k, nameNum_next, wrapInc_eq h]; omega

theorem nameStem_nextCounts : ∀ (k : Nat) (n : CName), nameStem (nextCounts k n) = nameStem n
  | 0, _ => rfl
  | k + 1, n => by rw [nextCounts, nameStem_nextCounts k, nameStem_next]

theorem nextCounts_succ (k : Nat) (n : CName) : nextCounts (k + 1) n = nextCount (nextCounts k n) := by
  induction k generalizing n with
  | zero => rfl
  | succ k ih => rw [nextCounts, ih]; rfl

theorem nextCounts_inj {a b : Nat} {n : CName} (ha : a < 4294967296) (hb : b < 4294967296) (h : nextCounts a n = nextCounts b n) : a = b := by
  have h1 := nameNum_nextCounts a n
  have h2 := nameNum_nextCounts b n
  rw [h] at h1
  have := nameNum_range n; unfold InInt32 at this
  omega

/-- Among finitely many names there is not every name that counting on gives. -/
theorem exists_free (ks : List CName) (n : CName) (h : ks.length < 4294967295) : ∃ k, k ≤ ks.length ∧ nextCounts k n ∉ ks := by
  apply Classical.byContradiction
  intro hn
  have hall : ∀ k, k ≤ ks.length → nextCounts k n ∈ ks := fun k hk => Classical.byContradiction fun h => hn ⟨k, hk, h⟩
  have hnd : ((List.range (ks.length + 1)).map fun k => nextCounts k n).Nodup := by
    rw [List.Nodup, List.pairwise_map]
    refine List.Pairwise.imp_of_mem ?_ List.nodup_range
    intro a b ha hb hab heq
    rw [List.mem_range] at ha hb
    exact hab (nextCounts_inj (by omega) (by omega) heq)
  have hsub : ((List.range (ks.length + 1)).map fun k => nextCounts k n) ⊆ ks := by
    intro x hx
    obtain ⟨k, hk, rfl⟩ := List.mem_map.mp hx
    exact hall k (by rw [List.mem_range] at hk; omega)
  have := hnd.length_le_of_subset hsub
  rw [List.length_map, List.length_range] at this
  omega
end Asn1
