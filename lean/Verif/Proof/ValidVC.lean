import Verif.Model.Valid
import Verif.Spec.Valid
import Verif.Proof.Equal
import Verif.Proof.Constraint
/-! The meaning of the blocks of generated code, and of the leaves. -/
namespace Asn1

/-- The block does not depend on the variable `ret`. -/
def VC.Free : VC → Prop
  | .stat f => ∀ v, f v false = f v true
  | _ => True

/-- The block, started with `ret` true, finds out whether `P` holds. -/
def VC.Den (vc : VC) (v : CVal) (P : Prop) : Prop :=
  match vc with
  | .tt => P
  | .ff => ¬ P
  | .expr e => ∃ b, e v = pure b ∧ (b = true ↔ P)
  | .stat f => ∃ b, f v true = pure b ∧ (b = true ↔ P)

theorem VC.Den.congr {vc : VC} {v : CVal} {P Q : Prop} (h : vc.Den v P) (e : P ↔ Q) : vc.Den v Q := by
  rw [← propext e]; exact h

theorem Mpure_bind {α β : Type} (a : α) (f : α → M β) : (pure a >>= f : M β) = f a := rfl

theorem den_or {a b : VC} {v : CVal} {P Q : Prop} (ha : a.Den v P) (hb : b.Den v Q) (hf : b.Free) : (a.or b).Den v (P ∨ Q) := by
  cases a <;> cases b <;> simp only [VC.or, VC.Den, VC.Free] at * <;>
    first
    | exact .inl ha
    | exact .inr hb
    | (rintro (h | h); exacts [ha h, hb h])
    | (obtain ⟨b, h1, h2⟩ := hb; exact ⟨b, h1, by rw [h2]; simp [ha]⟩)
    | (obtain ⟨b, h1, h2⟩ := ha; exact ⟨b, h1, by rw [h2]; simp [hb]⟩)
    | (obtain ⟨x, h1, h2⟩ := ha
       obtain ⟨y, h3, h4⟩ := hb
       try rw [hf v]
       rw [h1, Mpure_bind]
       cases x
       · refine ⟨y, by simpa using h3, ?_⟩
         rw [h4, ← h2]; simp
       · exact ⟨true, rfl, by rw [← h2]; simp⟩)

theorem den_and {a b : VC} {v : CVal} {P Q : Prop} (ha : a.Den v P) (hb : b.Den v Q) : (a.and b).Den v (P ∧ Q) := by
  cases a <;> cases b <;> simp only [VC.and, VC.Den] at * <;>
    first
    | exact ⟨ha, hb⟩
    | (rintro ⟨h1, h2⟩; first | exact ha h1 | exact hb h2)
    | (obtain ⟨b, h1, h2⟩ := hb; exact ⟨b, h1, by rw [h2]; simp [ha]⟩)
    | (obtain ⟨b, h1, h2⟩ := ha; exact ⟨b, h1, by rw [h2]; simp [hb]⟩)
    | (obtain ⟨x, h1, h2⟩ := ha
       obtain ⟨y, h3, h4⟩ := hb
       rw [h1, Mpure_bind]
       cases x
       · exact ⟨false, rfl, by rw [← h2]; simp⟩
       · refine ⟨y, by simpa using h3, ?_⟩
         rw [h4, ← h2]; simp)

theorem den_not {a : VC} {v : CVal} {P : Prop} (ha : a.Den v P) : a.not.Den v (¬ P) := by
  cases a <;> simp only [VC.not, VC.Den] at *
  · exact fun h => h ha
  · exact ha
  all_goals
    obtain ⟨b, h1, h2⟩ := ha
    exact ⟨!b, by rw [h1]; rfl, by rw [← h2]; cases b <;> simp⟩

theorem den_except {a b : VC} {v : CVal} {P Q : Prop} (ha : a.Den v P) (hb : b.Den v Q) : (a.except b).Den v (P ∧ ¬ Q) := by
  cases a <;> cases b <;> simp only [VC.except, VC.not, VC.Den] at * <;>
    first
    | (rintro ⟨h1, h2⟩; first | exact ha h1 | exact h2 hb)
    | exact ⟨ha, hb⟩
    | (obtain ⟨b, h1, h2⟩ := hb; exact ⟨!b, by rw [h1]; rfl, by rw [← h2]; cases b <;> simp [ha]⟩)
    | (obtain ⟨b, h1, h2⟩ := ha; exact ⟨b, h1, by rw [h2]; simp [hb]⟩)
    | (obtain ⟨x, h1, h2⟩ := ha
       obtain ⟨y, h3, h4⟩ := hb
       rw [h1, Mpure_bind]
       cases x
       · exact ⟨false, rfl, by rw [← h2]; simp⟩
       · refine ⟨!y, by simp only [if_true]; rw [h3]; rfl, ?_⟩
         rw [← h4, ← h2]; cases y <;> simp)

theorem free_or {a b : VC} (ha : a.Free) (hb : b.Free) : (a.or b).Free := by
  cases a <;> cases b <;> simp only [VC.or, VC.Free] at * <;> first | assumption | (intro v; rw [ha v]) | (intro v; trivial)

theorem free_and {a b : VC} (ha : a.Free) (hb : b.Free) : (a.and b).Free := by
  cases a <;> cases b <;> simp only [VC.and, VC.Free] at * <;> first | assumption | (intro v; rw [ha v]) | (intro v; trivial)

theorem free_not {a : VC} (ha : a.Free) : a.not.Free := by
  cases a <;> simp only [VC.not, VC.Free] at * <;> (intro v; rw [ha v])

theorem free_except {a b : VC} (ha : a.Free) (hb : b.Free) : (a.except b).Free := by
  cases a <;> cases b <;> simp only [VC.except, VC.not, VC.Free] at * <;>
    first | assumption | trivial | (intro v; rw [ha v]) | (intro v; rw [hb v]) | (intro v; trivial)

/-! ## Lists -/

/-- The blocks of a list find out whether `P` holds, together. -/
inductive DenList (v : CVal) : List VC → Prop → Prop
  | nil {P : Prop} : P → DenList v [] P
  | cons {x : VC} {xs : List VC} {P Q R : Prop} : x.Den v P → DenList v xs Q → (R ↔ P ∧ Q) → DenList v (x :: xs) R

theorem DenList.append {v : CVal} {l m : List VC} {P Q : Prop} (h1 : DenList v l P) (h2 : DenList v m Q) :
    DenList v (l ++ m) (P ∧ Q) := by
  induction h1 with
  | nil hP =>
    have e : (_ ∧ Q) = Q := propext ⟨fun h => h.2, fun h => ⟨hP, h⟩⟩
    rw [e]; exact h2
  | cons hx _ hR ih => exact .cons hx ih (by rw [hR, and_assoc])

theorem DenList.single {v : CVal} {x : VC} {P : Prop} (h : x.Den v P) : DenList v [x] P :=
  .cons h (.nil True.intro) (by simp)

theorem DenList.filter {v : CVal} {l : List VC} {P : Prop} (h : DenList v l P) (hf : l.any VC.isFf = false) :
    DenList v (l.filter VC.isCode) P := by
  induction h with
  | nil h => exact .nil h
  | @cons x xs P Q R hx _ hR ih =>
    simp only [List.any_cons, Bool.or_eq_false_iff] at hf
    have := ih hf.2
    cases x with
    | tt =>
      have e : R = Q := propext (by rw [hR]; simp only [VC.Den] at hx; simp [hx])
      rw [e]; exact this
    | ff => simp [VC.isFf] at hf
    | expr e => exact .cons hx this hR
    | stat f => exact .cons hx this hR

theorem DenList.ff {v : CVal} {l : List VC} {P : Prop} (h : DenList v l P) (hf : l.any VC.isFf = true) : ¬ P := by
  induction h with
  | nil => simp at hf
  | @cons x xs P Q R hx _ hR ih =>
    rw [hR]
    simp only [List.any_cons, Bool.or_eq_true] at hf
    rcases hf with hf | hf
    · cases x <;> simp only [VC.isFf, Bool.false_eq_true] at hf
      exact fun h => hx h.1
    · exact fun h => ih hf h.2

theorem run_den {x : VC} {v : CVal} {P : Prop} (h : x.Den v P) : ∃ b, x.run v true = pure b ∧ (b = true ↔ P) := by
  cases x with
  | tt => exact ⟨true, rfl, by simpa [VC.Den] using h⟩
  | ff => exact ⟨false, rfl, by simpa [VC.Den] using h⟩
  | expr e => exact h
  | stat f => exact h

theorem nestRun_den {v : CVal} {l : List VC} {P : Prop} (h : DenList v l P) :
    ∃ b, nestRun l v true = pure b ∧ (b = true ↔ P) := by
  induction h with
  | nil h => exact ⟨true, rfl, by simp [h]⟩
  | cons hx _ hR ih =>
    obtain ⟨b, h1, h2⟩ := run_den hx
    obtain ⟨c, h3, h4⟩ := ih
    rw [nestRun, h1, Mpure_bind]
    cases b
    · exact ⟨false, rfl, by rw [hR, ← h2]; simp⟩
    · exact ⟨c, h3, by rw [hR, h4, ← h2]; simp⟩

theorem den_multiAnd {v : CVal} {l : List VC} {P : Prop} (h : DenList v l P) : (multiAnd l).Den v P := by
  unfold multiAnd
  by_cases hf : l.any VC.isFf = true
  · rw [if_pos hf]; exact h.ff hf
  · rw [if_neg hf]
    have h' := h.filter (by simpa using hf)
    cases hl : l.filter VC.isCode with
    | nil => rw [hl] at h'; cases h'; assumption
    | cons x xs => rw [hl] at h'; exact nestRun_den h'

/-- The first block with code does not depend on `ret`. -/
def FreeList : List VC → Prop
  | [] => True
  | x :: xs => x.Free ∧ (x.isCode = true ∨ FreeList xs)

theorem FreeList.filter : ∀ {l : List VC}, FreeList l → ∀ {x xs}, l.filter VC.isCode = x :: xs → x.Free
  | [], _, _, _, e => by cases e
  | y :: l, h, x, xs, e => by
    rw [FreeList] at h
    rw [List.filter_cons] at e
    split at e
    · cases e; exact h.1
    · rename_i hc
      exact (h.2.resolve_left hc).filter e

theorem run_free {x : VC} (h : x.Free) (hc : x.isCode = true) (v : CVal) : x.run v false = x.run v true := by
  cases x <;> simp only [VC.isCode, Bool.false_eq_true] at hc
  · rfl
  · exact h v

theorem free_multiAnd {l : List VC} (h : FreeList l) : (multiAnd l).Free := by
  unfold multiAnd
  split
  · trivial
  · cases hl : l.filter VC.isCode with
    | nil => trivial
    | cons x xs =>
      intro v
      have hc : x.isCode = true := by
        have : x ∈ l.filter VC.isCode := by rw [hl]; simp
        exact (List.mem_filter.1 this).2
      rw [nestRun, nestRun, run_free (h.filter hl) hc]

theorem FreeList.append_left {l m : List VC} (h : FreeList l) (hc : ∃ x ∈ l, x.isCode = true) : FreeList (l ++ m) := by
  induction l with
  | nil => obtain ⟨x, hx, _⟩ := hc; cases hx
  | cons y l ih =>
    obtain ⟨x, hx, hcx⟩ := hc
    refine ⟨h.1, ?_⟩
    rcases List.mem_cons.1 hx with rfl | hx
    · exact .inl hcx
    · rcases h.2 with h2 | h2
      · exact .inl h2
      · exact .inr (ih h2 ⟨x, hx, hcx⟩)

/-! ## Leaves -/

theorem den_lift {get : CVal → M Int} {b : Vcb} {v : CVal} {n : Int} {P : Prop} (hg : get v = pure n)
    (h : b.eval n = true ↔ P) : (b.lift get).Den v P := by
  cases b with
  | tt => simpa [Vcb.eval, Vcb.lift, VC.Den] using h
  | ff => simpa [Vcb.eval, Vcb.lift, VC.Den] using h
  | expr e => exact ⟨e n, by show (get v >>= fun n => pure (e n)) = _; rw [hg]; rfl, h⟩

theorem free_lift (get : CVal → M Int) (b : Vcb) : (b.lift get).Free := by cases b <;> trivial

theorem den_size {v : CVal} {n : Nat} {c : Con RLeaf} (hg : getSize v = pure (n : Int)) (hn : n < 2 ^ 32) :
    (sizeVC c).Den v (c.Sat RLeaf.Sat (n : Int)) := by
  refine den_lift hg (con_eval sizeClass (by simp [sizeClass]) n ?_ ?_ c ?_)
  · simp only [sizeClass]; omega
  · simp only [sizeClass]; omega
  · induction c with
    | union c d ih1 ih2 => exact ⟨ih1, ih2⟩
    | inter c d ih1 ih2 => exact ⟨ih1, ih2⟩
    | allExcept c ih => exact ih
    | except c d ih1 ih2 => exact ⟨ih1, ih2⟩
    | root c ih => exact ih
    | root2 c d ih1 ih2 => exact ⟨ih1, ih2⟩
    | leaf l => cases l <;> simp [Con.Leaves, RLeaf.LitsFit, sizeClass]

theorem cStrlen_pure : ∀ {a : List Byte}, 0#8 ∈ a → cStrlen a = pure (a.takeWhile (· ≠ 0#8)).length
  | [], h => by cases h
  | c :: rest, h => by
    rw [cStrlen]
    by_cases e : c = 0#8
    · simp [e]
    · rw [if_neg e, cStrlen_pure (a := rest) (by simpa [Ne.symm e] using h), Mpure_bind]
      simp [e]

theorem charVal_eq {c : Byte} (h : c.toNat < 128) : charVal c = c.toNat := by
  unfold charVal
  rw [BitVec.toInt_eq_toNat_cond, if_pos (by omega)]

theorem alphaLeafTest_iff {c : Byte} (h : c.toNat < 128) : ∀ l : AlphaLeaf, l.Octets → (alphaLeafTest l c = true ↔ l.Sat c.toNat)
  | .chars w, ho => by
    simp only [alphaLeafTest, AlphaLeaf.Sat, List.any_eq_true, decide_eq_true_eq]
    constructor
    · rintro ⟨ch, hch, e⟩
      have := ho ch hch
      rw [← e, BitVec.toNat_ofNat, Nat.mod_eq_of_lt (by omega)]; exact hch
    · intro hch
      exact ⟨_, hch, by simp⟩
  | .range v1 v2 i j, _ => by
    simp only [alphaLeafTest, AlphaLeaf.Sat, charVal_eq h]
    cases i <;> cases j <;> simp
  | .valMax v1 i, _ => by
    simp only [alphaLeafTest, AlphaLeaf.Sat, charVal_eq h]
    cases i <;> simp
  | .minVal v2 j, _ => by
    simp only [alphaLeafTest, AlphaLeaf.Sat, charVal_eq h]
    cases j <;> simp

theorem alphaTest_iff {ch : Byte} (h : ch.toNat < 128) : ∀ c : Con AlphaLeaf, c.Leaves AlphaLeaf.Octets →
    (alphaTest c ch = true ↔ c.Sat AlphaLeaf.Sat ch.toNat)
  | .union c d, hl => by simp only [alphaTest, Con.Sat, Bool.or_eq_true, alphaTest_iff h c hl.1, alphaTest_iff h d hl.2]
  | .inter c d, hl => by simp only [alphaTest, Con.Sat, Bool.and_eq_true, alphaTest_iff h c hl.1, alphaTest_iff h d hl.2]
  | .allExcept c, hl => by
    simp only [alphaTest, Con.Sat, ← alphaTest_iff h c hl, Bool.not_eq_true', Bool.not_eq_true]
  | .except c d, hl => by
    simp only [alphaTest, Con.Sat, Bool.and_eq_true, alphaTest_iff h c hl.1, ← alphaTest_iff h d hl.2, Bool.not_eq_true', Bool.not_eq_true]
  | .root c, hl => by simp only [alphaTest, Con.Sat, alphaTest_iff h c hl]
  | .root2 c d, hl => by simp only [alphaTest, Con.Sat, Bool.or_eq_true, alphaTest_iff h c hl.1, alphaTest_iff h d hl.2]
  | .leaf l, hl => by simp only [alphaTest, Con.Sat]; exact alphaLeafTest_iff h l hl

theorem charsAreValid_pure {p : Byte → Bool} : ∀ {a : List Byte}, 0#8 ∈ a →
    charsAreValid p a = pure ((a.takeWhile (· ≠ 0#8)).all p)
  | [], h => by cases h
  | c :: rest, h => by
    rw [charsAreValid]
    by_cases e : c = 0#8
    · simp [e]
    · rw [if_neg e]
      by_cases hp : p c = true
      · rw [if_pos hp, charsAreValid_pure (a := rest) (by simpa [Ne.symm e] using h)]
        simp [e, hp]
      · rw [if_neg hp]
        simp [e, hp]

end Asn1
