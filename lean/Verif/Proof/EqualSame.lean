import Verif.Proof.Equal
/-! `SameBy`: monotonicity, reflexivity, and equality. -/
namespace Asn1

mutual
theorem sameBy_mono {R S : Dbl → Dbl → Prop} (h : ∀ a b, R a b → S a b) : ∀ (t : CTy) (x y : AV), SameBy R t x y → SameBy S t x y
  | .real _, x, y, hh => by
    cases x <;> cases y <;> simp only [SameBy] at hh ⊢ <;> first | exact h _ _ hh | exact hh
  | .seq fs _, x, y, hh => by
    cases x <;> cases y <;> simp only [SameBy] at hh ⊢ <;> first | exact sameByFields_mono h fs _ _ hh | exact hh
  | .seqOf _ _ t _, x, y, hh => by
    cases x <;> cases y <;> simp only [SameBy] at hh ⊢ <;> first | exact hh.imp (fun a b => sameBy_mono h t a b) | exact hh
  | .choice alts _, x, y, hh => by
    cases x <;> cases y <;> simp only [SameBy] at hh ⊢ <;> first | exact ⟨hh.1, sameByAlt_mono h alts _ _ _ hh.2⟩ | exact hh
  | .ref t _ _, x, y, hh => by
    simp only [SameBy] at hh ⊢
    exact sameBy_mono h t x y hh
  | .int _ _, x, y, hh => by simp only [SameBy] at hh ⊢; exact hh
  | .bool _, x, y, hh => by simp only [SameBy] at hh ⊢; exact hh
  | .null, x, y, hh => by simp only [SameBy] at hh ⊢; exact hh
  | .enum _ _, x, y, hh => by simp only [SameBy] at hh ⊢; exact hh
  | .octets _ _ _, x, y, hh => by simp only [SameBy] at hh ⊢; exact hh
  | .bits _ _ _, x, y, hh => by simp only [SameBy] at hh ⊢; exact hh
  | .str _ _ _ _, x, y, hh => by simp only [SameBy] at hh ⊢; exact hh
  | .oid _ _, x, y, hh => by simp only [SameBy] at hh ⊢; exact hh
theorem sameByFields_mono {R S : Dbl → Dbl → Prop} (h : ∀ a b, R a b → S a b) : ∀ (fs : CFields) (x y : List (Option AV)),
    SameByFields R fs x y → SameByFields S fs x y
  | .nil, x, y, hh => by cases x <;> cases y <;> simp [SameByFields] at hh ⊢
  | .cons o t rest, x, y, hh => by
    cases x with
    | nil => simp [SameByFields] at hh
    | cons x0 xs =>
      cases y with
      | nil => cases x0 <;> simp [SameByFields] at hh
      | cons y0 ys =>
        cases x0 <;> cases y0 <;> simp only [SameByFields] at hh ⊢
        · exact sameByFields_mono h rest xs ys hh
        · exact ⟨sameBy_mono h t _ _ hh.1, sameByFields_mono h rest xs ys hh.2⟩
theorem sameByAlt_mono {R S : Dbl → Dbl → Prop} (h : ∀ a b, R a b → S a b) : ∀ (alts : CAlts) (i : Nat) (x y : AV),
    SameByAlt R alts i x y → SameByAlt S alts i x y
  | .nil, i, x, y, hh => by simp [SameByAlt] at hh
  | .cons t _, 0, x, y, hh => by simp only [SameByAlt] at hh ⊢; exact sameBy_mono h t x y hh
  | .cons _ rest, i + 1, x, y, hh => by simp only [SameByAlt] at hh ⊢; exact sameByAlt_mono h rest i x y hh
end

mutual
theorem sameBy_noReal {R S : Dbl → Dbl → Prop} : ∀ (t : CTy) (x y : AV), t.noReal = true → SameBy R t x y → SameBy S t x y
  | .real _, x, y, hn, hh => by simp [CTy.noReal] at hn
  | .seq fs _, x, y, hn, hh => by
    simp only [CTy.noReal] at hn
    cases x <;> cases y <;> simp only [SameBy] at hh ⊢ <;> first | exact sameByFields_noReal fs _ _ hn hh | exact hh
  | .seqOf _ _ t _, x, y, hn, hh => by
    simp only [CTy.noReal] at hn
    cases x <;> cases y <;> simp only [SameBy] at hh ⊢ <;> first | exact hh.imp (fun a b => sameBy_noReal t a b hn) | exact hh
  | .choice alts _, x, y, hn, hh => by
    simp only [CTy.noReal] at hn
    cases x <;> cases y <;> simp only [SameBy] at hh ⊢ <;> first | exact ⟨hh.1, sameByAlt_noReal alts _ _ _ hn hh.2⟩ | exact hh
  | .ref t _ _, x, y, hn, hh => by
    simp only [CTy.noReal] at hn
    simp only [SameBy] at hh ⊢
    exact sameBy_noReal t x y hn hh
  | .int _ _, x, y, hn, hh => by simp only [SameBy] at hh ⊢; exact hh
  | .bool _, x, y, hn, hh => by simp only [SameBy] at hh ⊢; exact hh
  | .null, x, y, hn, hh => by simp only [SameBy] at hh ⊢; exact hh
  | .enum _ _, x, y, hn, hh => by simp only [SameBy] at hh ⊢; exact hh
  | .octets _ _ _, x, y, hn, hh => by simp only [SameBy] at hh ⊢; exact hh
  | .bits _ _ _, x, y, hn, hh => by simp only [SameBy] at hh ⊢; exact hh
  | .str _ _ _ _, x, y, hn, hh => by simp only [SameBy] at hh ⊢; exact hh
  | .oid _ _, x, y, hn, hh => by simp only [SameBy] at hh ⊢; exact hh
theorem sameByFields_noReal {R S : Dbl → Dbl → Prop} : ∀ (fs : CFields) (x y : List (Option AV)), fs.noReal = true →
    SameByFields R fs x y → SameByFields S fs x y
  | .nil, x, y, hn, hh => by cases x <;> cases y <;> simp [SameByFields] at hh ⊢
  | .cons o t rest, x, y, hn, hh => by
    simp only [CFields.noReal, Bool.and_eq_true] at hn
    cases x with
    | nil => simp [SameByFields] at hh
    | cons x0 xs =>
      cases y with
      | nil => cases x0 <;> simp [SameByFields] at hh
      | cons y0 ys =>
        cases x0 <;> cases y0 <;> simp only [SameByFields] at hh ⊢
        · exact sameByFields_noReal rest xs ys hn.2 hh
        · exact ⟨sameBy_noReal t _ _ hn.1 hh.1, sameByFields_noReal rest xs ys hn.2 hh.2⟩
theorem sameByAlt_noReal {R S : Dbl → Dbl → Prop} : ∀ (alts : CAlts) (i : Nat) (x y : AV), alts.noReal = true →
    SameByAlt R alts i x y → SameByAlt S alts i x y
  | .nil, i, x, y, hn, hh => by simp [SameByAlt] at hh
  | .cons t _, 0, x, y, hn, hh => by
    simp only [CAlts.noReal, Bool.and_eq_true] at hn
    simp only [SameByAlt] at hh ⊢; exact sameBy_noReal t x y hn.1 hh
  | .cons _ rest, i + 1, x, y, hn, hh => by
    simp only [CAlts.noReal, Bool.and_eq_true] at hn
    simp only [SameByAlt] at hh ⊢; exact sameByAlt_noReal rest i x y hn.2 hh
end

theorem forall2_eq_of {α : Type} {P : α → α → Prop} (h : ∀ a b, P a b → a = b) {l m : List α} (hh : List.Forall₂ P l m) : l = m := by
  induction hh with
  | nil => rfl
  | cons h1 _ ih => rw [h _ _ h1, ih]

mutual
theorem sameBy_eq_of : ∀ (t : CTy) (x y : AV), SameBy (· = ·) t x y → x = y
  | .real _, x, y, hh => by
    cases x <;> cases y <;> simp only [SameBy] at hh <;> first | exact congrArg AV.real hh | exact hh | rfl
  | .seq fs _, x, y, hh => by
    cases x <;> cases y <;> simp only [SameBy] at hh <;> first | exact congrArg AV.seq (sameByFields_eq_of fs _ _ hh) | exact hh | rfl
  | .seqOf _ _ t _, x, y, hh => by
    cases x <;> cases y <;> simp only [SameBy] at hh <;>
      first | exact congrArg AV.seqOf (forall2_eq_of (fun a b => sameBy_eq_of t a b) hh) | exact hh | rfl
  | .choice alts _, x, y, hh => by
    cases x <;> cases y <;> simp only [SameBy] at hh <;>
      first | exact congr (congrArg AV.choice hh.1) (sameByAlt_eq_of alts _ _ _ hh.2) | exact hh | rfl
  | .ref t _ _, x, y, hh => by
    simp only [SameBy] at hh
    exact sameBy_eq_of t x y hh
  | .int _ _, x, y, hh => by simp only [SameBy] at hh; exact hh
  | .bool _, x, y, hh => by simp only [SameBy] at hh; exact hh
  | .null, x, y, hh => by simp only [SameBy] at hh; exact hh
  | .enum _ _, x, y, hh => by simp only [SameBy] at hh; exact hh
  | .octets _ _ _, x, y, hh => by simp only [SameBy] at hh; exact hh
  | .bits _ _ _, x, y, hh => by simp only [SameBy] at hh; exact hh
  | .str _ _ _ _, x, y, hh => by simp only [SameBy] at hh; exact hh
  | .oid _ _, x, y, hh => by simp only [SameBy] at hh; exact hh
theorem sameByFields_eq_of : ∀ (fs : CFields) (x y : List (Option AV)), SameByFields (· = ·) fs x y → x = y
  | .nil, x, y, hh => by cases x <;> cases y <;> simp [SameByFields] at hh ⊢
  | .cons o t rest, x, y, hh => by
    cases x with
    | nil => simp [SameByFields] at hh
    | cons x0 xs =>
      cases y with
      | nil => cases x0 <;> simp [SameByFields] at hh
      | cons y0 ys =>
        cases x0 <;> cases y0 <;> simp only [SameByFields] at hh
        · rw [sameByFields_eq_of rest xs ys hh]
        · rw [sameBy_eq_of t _ _ hh.1, sameByFields_eq_of rest xs ys hh.2]
theorem sameByAlt_eq_of : ∀ (alts : CAlts) (i : Nat) (x y : AV), SameByAlt (· = ·) alts i x y → x = y
  | .nil, i, x, y, hh => by simp [SameByAlt] at hh
  | .cons t _, 0, x, y, hh => by simp only [SameByAlt] at hh; exact sameBy_eq_of t x y hh
  | .cons _ rest, i + 1, x, y, hh => by simp only [SameByAlt] at hh; exact sameByAlt_eq_of rest i x y hh
end

theorem forall2_self {α : Type} {P : α → α → Prop} {l : List α} (h : ∀ x ∈ l, P x x) : List.Forall₂ P l l := by
  induction l with
  | nil => exact List.Forall₂.nil
  | cons a l ih => exact List.Forall₂.cons (h a (by simp)) (ih fun x hx => h x (by simp [hx]))

theorem forall2_right {α β : Type} {P : α → β → Prop} {l : List α} {m : List β} (h : List.Forall₂ P l m) :
    ∀ y ∈ m, ∃ x ∈ l, P x y := by
  induction h with
  | nil => intro y hy; cases hy
  | cons h1 _ ih =>
    intro y hy
    rcases List.mem_cons.1 hy with rfl | hy
    · exact ⟨_, by simp, h1⟩
    · obtain ⟨x, hx, hp⟩ := ih y hy
      exact ⟨x, by simp [hx], hp⟩

mutual
theorem sameBy_refl {R : Dbl → Dbl → Prop} (h : ∀ a, R a a) : ∀ (t : CTy) (v : CVal) (x : AV), meaning t v = some x → SameBy R t x x
  | .real _, v, x, hm => by
    cases x <;> simp only [SameBy]; exact h _
  | .seq fs _, v, x, hm => by
    cases v <;> simp only [meaning, reduceCtorEq, Option.map_eq_some_iff] at hm
    obtain ⟨l, hl, rfl⟩ := hm
    simp only [SameBy]
    exact sameByFields_refl h fs _ l hl
  | .seqOf lo hi t _, v, x, hm => by
    cases v <;> simp only [meaning, reduceCtorEq] at hm
    split at hm <;> simp only [Option.map_eq_some_iff, reduceCtorEq, Option.bind_eq_some_iff] at hm
    obtain ⟨l, ⟨l0, -, hl⟩, rfl⟩ := hm
    rw [mapM_some_iff] at hl
    simp only [SameBy]
    refine forall2_self fun x hx => ?_
    obtain ⟨v, _, hv⟩ := forall2_right hl x hx
    exact sameBy_refl h t v x hv
  | .choice alts _, v, x, hm => by
    cases v <;> simp only [meaning, reduceCtorEq] at hm
    split at hm <;> simp only [Option.map_eq_some_iff, reduceCtorEq] at hm
    obtain ⟨w, hw, rfl⟩ := hm
    simp only [SameBy, true_and]
    exact sameByAlt_refl h alts _ _ w hw
  | .ref t _ _, v, x, hm => by
    simp only [meaning] at hm
    simp only [SameBy]
    exact sameBy_refl h t v x hm
  | .int _ _, v, x, _ => by simp only [SameBy]
  | .bool _, v, x, _ => by simp only [SameBy]
  | .null, v, x, _ => by simp only [SameBy]
  | .enum _ _, v, x, _ => by simp only [SameBy]
  | .octets _ _ _, v, x, _ => by simp only [SameBy]
  | .bits _ _ _, v, x, _ => by simp only [SameBy]
  | .str _ _ _ _, v, x, _ => by simp only [SameBy]
  | .oid _ _, v, x, _ => by simp only [SameBy]
theorem sameByFields_refl {R : Dbl → Dbl → Prop} (h : ∀ a, R a a) : ∀ (fs : CFields) (v : List (Bool × CVal)) (x : List (Option AV)),
    meaningFields fs v = some x → SameByFields R fs x x
  | .nil, v, x, hm => by
    cases v <;> simp only [meaningFields, reduceCtorEq, Option.some.injEq] at hm
    subst hm; simp [SameByFields]
  | .cons o t rest, v, x, hm => by
    cases v with
    | nil => simp [meaningFields] at hm
    | cons p vs =>
      obtain ⟨e, v⟩ := p
      cases o <;> cases e <;>
        simp only [meaningFields, Option.bind_eq_bind, Option.bind_eq_some_iff, Option.some.injEq] at hm <;>
        first
        | (obtain ⟨x0, hx0, xs, hxs, rfl⟩ := hm
           simp only [SameByFields]
           exact ⟨sameBy_refl h t _ _ hx0, sameByFields_refl h rest _ _ hxs⟩)
        | (obtain ⟨xs, hxs, rfl⟩ := hm
           simp only [SameByFields]
           exact sameByFields_refl h rest _ _ hxs)
theorem sameByAlt_refl {R : Dbl → Dbl → Prop} (h : ∀ a, R a a) : ∀ (alts : CAlts) (i : Nat) (v : CVal) (x : AV),
    meaningAlt alts i v = some x → SameByAlt R alts i x x
  | .nil, i, v, x, hm => by simp [meaningAlt] at hm
  | .cons t _, 0, v, x, hm => by simp only [meaningAlt] at hm; simp only [SameByAlt]; exact sameBy_refl h t v x hm
  | .cons _ rest, i + 1, v, x, hm => by
    simp only [meaningAlt] at hm; simp only [SameByAlt]; exact sameByAlt_refl h rest i v x hm
end

end Asn1
