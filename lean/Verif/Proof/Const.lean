import Verif.Model.Const
import Verif.Spec.Const
import Verif.Proof.Init
/-!
# Lemmas for C98
-/
namespace Asn1

mutual
theorem zeroC_layout : ∀ t : CTy, HasLayout t (zeroC t)
  | .int _ _ | .bool _ | .null | .enum _ _ | .real _ | .choice _ _ => by simp [zeroC, HasLayout]
  | .octets _ _ _ | .bits _ _ _ | .str _ _ _ _ | .oid _ _ => by simp [zeroC, HasLayout]
  | .seq fs _ => by simp only [zeroC, HasLayout]; exact zeroFieldsC_layout fs
  | .seqOf _ hi t _ => by
    simp only [zeroC, HasLayout, List.length_replicate, true_and]
    intro x hx; rw [List.eq_of_mem_replicate hx]; exact zeroC_layout t
  | .ref t _ _ => by simp only [zeroC, HasLayout]; exact zeroC_layout t
theorem zeroFieldsC_layout : ∀ fs : CFields, HasLayoutFields fs (zeroFieldsC fs)
  | .nil => trivial
  | .cons _ t rest => ⟨zeroC_layout t, zeroFieldsC_layout rest⟩
end

theorem constArr_ok {α : Type} {n : Nat} {z : α} {l : List α} (h : l.length ≤ n) :
    constArr n z l = some (l ++ List.replicate (n - l.length) z) := if_pos h

theorem constAll_ok {f : AV → Option CVal} {P : AV → Prop} {L : CVal → Prop} {g : CVal → Option AV}
    (h : ∀ a, P a → ∃ w, f a = some w ∧ g w = some a ∧ L w) :
    ∀ l : List AV, (∀ x ∈ l, P x) → ∃ m, constAll f l = some m ∧ m.length = l.length ∧ m.mapM g = some l ∧ ∀ x ∈ m, L x
  | [], _ => ⟨[], rfl, rfl, rfl, by simp⟩
  | x :: xs, hp => by
    obtain ⟨w, h1, h2, h3⟩ := h x (hp x (by simp))
    obtain ⟨ws, h4, h5, h6, h7⟩ := constAll_ok h xs fun y hy => hp y (by simp [hy])
    refine ⟨w :: ws, by simp [constAll, h1, h4], by simp [h5], ?_, ?_⟩
    · simp [List.mapM_cons, h2, h6]
    · intro y hy
      rcases List.mem_cons.1 hy with rfl | hy
      · exact h3
      · exact h7 y hy

theorem anyBit_iff : ∀ fs : CFields, fs.anyBit = true ↔ fs.Optional
  | .nil => by simp [CFields.anyBit, CFields.Optional]
  | .cons o _ rest => by
    rw [CFields.anyBit, CFields.Optional, Bool.or_eq_true, anyBit_iff rest]
    cases o <;> simp [COpt.hasBit]

/-- The same object is stored by the statements for the value, into memory filled with zeros. -/
theorem leaf_ok {t : CTy} {sz : Option (Nat × Nat)} {a : AV} {w : CVal} (hs : t.Storable sz a)
    (h : constOf t sz a = some w) (hi : ∀ s, initByValue zeroC t sz a (zeroC t) s = .ok (w, s)) :
    ∃ w, constOf t sz a = some w ∧ meaning t w = some a ∧ HasLayout t w := by
  obtain ⟨w', h1, h2, h3⟩ := byValue_ok zeroC_layout t sz a (zeroC t) ⟨[], 0, 0, 0⟩ hs (zeroC_layout t)
  rw [hi] at h1
  cases h1
  exact ⟨w, h, h2, h3⟩

theorem constBytes_eq {sized fixed : Bool} {n : Nat} {l : List Byte} (h : fixed = true → sized = true) (hl : l.length ≤ n) :
    constBytes sized fixed n l = some (if fixed then 0 else (l.length : Int), l ++ List.replicate (n - l.length) 0#8) := by
  unfold constBytes
  cases fixed
  · rw [if_neg (by simp), constArr_ok hl]; rfl
  · rw [if_pos rfl, if_pos (h rfl), constArr_ok hl]; rfl

mutual
theorem constOf_ok : ∀ (t : CTy) (sz : Option (Nat × Nat)) (a : AV), t.Constant sz a →
    ∃ w, constOf t sz a = some w ∧ meaning t w = some a ∧ HasLayout t w
  | .int cls cons, sz, a, hs => by
    cases a <;> simp only [CTy.Constant] at hs <;> try (simp only [CTy.Storable] at hs; done)
    exact leaf_ok hs (by rw [constOf]) fun s => rfl
  | .bool cons, sz, a, hs => by
    cases a <;> simp only [CTy.Constant] at hs <;> try (simp only [CTy.Storable] at hs; done)
    exact leaf_ok hs (by rw [constOf]) fun s => rfl
  | .null, sz, a, hs => by
    cases a <;> simp only [CTy.Constant] at hs <;> try (simp only [CTy.Storable] at hs; done)
    exact leaf_ok hs (by rw [constOf]) fun s => rfl
  | .enum items cons, sz, a, hs => by
    cases a <;> simp only [CTy.Constant] at hs <;> try (simp only [CTy.Storable] at hs; done)
    exact leaf_ok hs (by rw [constOf]) fun s => rfl
  | .octets lo hi cons, sz, a, hs => by
    cases a <;> simp only [CTy.Constant] at hs <;> try (simp only [CTy.Storable] at hs; done)
    rename_i l
    have hs' := hs
    simp only [CTy.Storable] at hs'
    refine leaf_ok hs (by rw [constOf, constBytes_eq (by simpa using hs'.2.2) hs'.1]; rfl) fun s => ?_
    simp only [initByValue, zeroC]
    rw [bind_ok (putAll_ok (by simpa using hs'.1) s)]
    simp only [List.drop_replicate, beq_iff_eq]
    rfl
  | .bits lo hi cons, sz, a, hs => by
    cases a <;> simp only [CTy.Constant] at hs <;> try (simp only [CTy.Storable] at hs; done)
    rename_i l
    have hs' := hs
    simp only [CTy.Storable] at hs'
    have hpl := packBits_length l
    have hle : (packBits l).length ≤ (hi + 7) / 8 := by omega
    refine leaf_ok hs (by rw [constOf, constBytes_eq (by simpa using hs'.2.2.2) hle]; rfl) fun s => ?_
    simp only [initByValue, zeroC]
    rw [bind_ok (putAll_ok (by simpa using hle) s)]
    simp only [List.drop_replicate, beq_iff_eq]
    rfl
  | .str lo hi al cons, sz, a, hs => by
    cases a <;> simp only [CTy.Constant] at hs <;> try (simp only [CTy.Storable] at hs; done)
    rename_i l
    have hs' := hs
    simp only [CTy.Storable] at hs'
    obtain ⟨h1, h2⟩ := hs'
    have hf : l.filter (· ≠ 0x22#8) = l := List.filter_eq_self.2 fun c hc => by simpa using (h2 c hc).2.2.1
    have hb : ¬ 0x5C#8 ∈ l := fun h => (h2 _ h).2.2.2 rfl
    have htw : l.takeWhile (· ≠ 0#8) = l := by
      have := List.takeWhile_append_of_pos (p := fun c : Byte => decide (c ≠ 0#8)) (l₁ := l) (l₂ := [])
        (by simpa using fun c hc => (h2 c hc).1)
      simpa using this
    refine leaf_ok hs (by rw [constOf, constStr, if_neg hb, hf, constArr_ok (by omega)]; rfl) fun s => ?_
    have hlit : cLiteralOf l s = .ok (l, s) := by
      unfold cLiteralOf
      rw [if_neg hb, hf]; rfl
    simp only [initByValue, zeroC]
    rw [bind_ok hlit]
    have hcpy : strCpy (List.replicate (hi + 1) 0#8) l s = .ok (l ++ List.replicate (hi + 1 - l.length) 0#8, s) := by
      unfold strCpy
      rw [htw, putAll_ok (by simp; omega)]
      simp only [List.drop_replicate, List.length_append, List.length_singleton, List.append_assoc]
      have : hi + 1 - l.length = (hi + 1 - (l.length + 1)) + 1 := by omega
      rw [this, List.replicate_succ]; rfl
    rw [bind_ok hcpy]; rfl
  | .oid rel cons, sz, a, hs => by
    cases a <;> simp only [CTy.Constant] at hs <;> try (simp only [CTy.Storable] at hs; done)
    rename_i l
    have hs' := hs
    simp only [CTy.Storable] at hs'
    refine leaf_ok hs (by rw [constOf, constArr_ok hs']; rfl) fun s => ?_
    simp only [initByValue, zeroC]
    rw [bind_ok (putAll_ok (by simpa using hs') s)]
    simp only [List.drop_replicate]
    rfl
  | .real cons, sz, a, hs => by
    cases a <;> simp only [CTy.Constant] at hs <;> try (simp only [CTy.Storable] at hs; done)
    exact ⟨.real _, by rw [constOf, if_neg hs], rfl, trivial⟩
  | .seq fs cons, sz, a, hs => by
    cases a <;> simp only [CTy.Constant] at hs <;> try (simp only [CTy.Storable] at hs; done)
    rename_i l
    obtain ⟨w, p, hw, hm, hL, hp⟩ := constFields_ok fs l hs.1
    refine ⟨.seq w, ?_, ?_, hL⟩
    · rw [constOf, hw]
      have : ¬ ((p == false && fs.anyBit) = true) := by
        intro h
        rw [Bool.and_eq_true, anyBit_iff] at h
        rw [hp (hs.2 h.2)] at h
        exact absurd h.1 (by decide)
      show (if (p == false && fs.anyBit) = true then none else some (CVal.seq w)) = _
      rw [if_neg this]
    · simp only [meaning, hm]; rfl
  | .seqOf lo hi t cons, sz, a, hs => by
    cases a <;> simp only [CTy.Constant] at hs <;> try (simp only [CTy.Storable] at hs; done)
    rename_i l
    obtain ⟨h1, h2, h3, h4⟩ := hs
    obtain ⟨m, hm, hml, hmm, hmL⟩ := constAll_ok (f := constOf t none) (P := t.Constant none) (L := HasLayout t)
      (g := meaning t) (fun a hp => constOf_ok t none a hp) l h4
    have hlen : (m ++ List.replicate (hi - m.length) (zeroC t)).length = hi := by simp; omega
    refine ⟨.seqOf (if (sz.getD (lo, hi)).1 = (sz.getD (lo, hi)).2 then 0 else l.length)
      (m ++ List.replicate (hi - m.length) (zeroC t)), ?_, ?_, ?_⟩
    · rw [constOf, hm]
      simp only [Option.bind_eq_bind, Option.bind_some]
      rw [constArr_ok (by omega)]; rfl
    · simp only [meaning]
      rw [if_pos hlen, counted_prefix (by omega) hlen (fun h => by rw [hml, h2 h])
        (fun hne => by rw [if_neg fun h => hne (h3 h), hml])]
      simp only [Option.bind_some, hmm]; rfl
    · simp only [HasLayout]
      refine ⟨hlen, fun x hx => ?_⟩
      rcases List.mem_append.1 hx with hx | hx
      · exact hmL x hx
      · rw [List.eq_of_mem_replicate hx]; exact zeroC_layout t
  | .choice alts cons, sz, a, hs => by
    cases a <;> simp only [CTy.Constant] at hs <;> try (simp only [CTy.Storable] at hs; done)
    rename_i i x
    obtain ⟨w, hw, hm⟩ := constAlt_ok alts i x hs
    refine ⟨.choice (i + 1) w, by rw [constOf, hw]; rfl, ?_, trivial⟩
    simp only [meaning]
    have : ((i : Int) + 1).toNat - 1 = i := by omega
    rw [if_pos (by omega), this, hm]; rfl
  | .ref t sz' cons, sz, a, hs => by
    simp only [CTy.Constant] at hs
    simpa only [constOf, meaning, HasLayout] using constOf_ok t _ a hs
theorem constFields_ok : ∀ (fs : CFields) (l : List (Option AV)), fs.Constant l →
    ∃ w p, constFields fs l = some (w, p) ∧ meaningFields fs w = some l ∧ HasLayoutFields fs w ∧ (fs.Written l → p = true)
  | .nil, [], hs => ⟨[], false, rfl, rfl, trivial, fun h => by simp [CFields.Written] at h⟩
  | .nil, _ :: _, hs => hs.elim
  | .cons o t rest, [], hs => by simp only [CFields.Constant] at hs
  | .cons o t rest, some x :: xs, hs => by
    simp only [CFields.Constant] at hs
    obtain ⟨w, hw, hm, hL⟩ := constOf_ok t none x hs.1
    obtain ⟨ws, p, hws, hms, hLs, _⟩ := constFields_ok rest xs hs.2
    refine ⟨(o.hasBit, w) :: ws, true, by simp [constFields, hw, hws], ?_, ⟨hL, hLs⟩, fun _ => rfl⟩
    cases o <;> simp [meaningFields, COpt.hasBit, hm, hms]
  | .cons .mandatory t rest, none :: xs, hs => hs.elim
  | .cons (.default d) t rest, none :: xs, hs => by
    simp only [CFields.Constant] at hs
    obtain ⟨w, hw, hm, hL⟩ := constOf_ok t none d hs.1
    obtain ⟨ws, p, hws, hms, hLs, _⟩ := constFields_ok rest xs hs.2
    exact ⟨(false, w) :: ws, true, by simp [constFields, hw, hws], by simp [meaningFields, hms], ⟨hL, hLs⟩, fun _ => rfl⟩
  | .cons .optional t rest, none :: xs, hs => by
    simp only [CFields.Constant] at hs
    obtain ⟨ws, p, hws, hms, hLs, hp⟩ := constFields_ok rest xs hs
    exact ⟨(false, zeroC t) :: ws, p, by simp [constFields, hws], by simp [meaningFields, hms], ⟨zeroC_layout t, hLs⟩,
      fun h => hp (by simpa [CFields.Written] using h)⟩
  | .cons .absent t rest, none :: xs, hs => by
    simp only [CFields.Constant] at hs
    obtain ⟨ws, p, hws, hms, hLs, hp⟩ := constFields_ok rest xs hs
    exact ⟨(false, zeroC t) :: ws, p, by simp [constFields, hws], by simp [meaningFields, hms], ⟨zeroC_layout t, hLs⟩,
      fun h => hp (by simpa [CFields.Written] using h)⟩
  | .cons .present t rest, none :: xs, hs => by
    simp only [CFields.Constant] at hs
    obtain ⟨ws, p, hws, hms, hLs, hp⟩ := constFields_ok rest xs hs
    exact ⟨(false, zeroC t) :: ws, p, by simp [constFields, hws], by simp [meaningFields, hms], ⟨zeroC_layout t, hLs⟩,
      fun h => hp (by simpa [CFields.Written] using h)⟩
theorem constAlt_ok : ∀ (alts : CAlts) (i : Nat) (x : AV), alts.Constant i x →
    ∃ w, constAlt alts i x = some w ∧ meaningAlt alts i w = some x
  | .nil, _, _, hs => hs.elim
  | .cons t _, 0, x, hs => by
    simp only [CAlts.Constant] at hs
    obtain ⟨w, hw, hm, _⟩ := constOf_ok t none x hs
    exact ⟨w, by rw [constAlt, hw], by rw [meaningAlt, hm]⟩
  | .cons _ rest, i + 1, x, hs => by
    simp only [CAlts.Constant] at hs
    obtain ⟨w, hw, hm⟩ := constAlt_ok rest i x hs
    exact ⟨w, by rw [constAlt, hw], by rw [meaningAlt, hm]⟩
end

end Asn1
