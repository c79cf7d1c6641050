import Verif.Proof.Valid
/-! The code generated for a constraint finds out whether the constraint holds. -/
namespace Asn1

theorem getExist_pure {l : List (Bool × CVal)} {i : Nat} {e : Bool} {v : CVal} (h : l[i]? = some (e, v)) :
    getExist i (.seq l) = pure e := by
  obtain ⟨hi, he⟩ := List.getElem?_eq_some_iff.1 h
  simp only [getExist]
  rw [tblGet_pure hi, Mpure_bind, he]

theorem getComp_pure {l : List (Bool × CVal)} {i : Nat} {e : Bool} {v : CVal} (h : l[i]? = some (e, v)) :
    getComp i (.seq l) = pure v := by
  obtain ⟨hi, he⟩ := List.getElem?_eq_some_iff.1 h
  simp only [getComp]
  rw [tblGet_pure hi, Mpure_bind, he]

theorem hasBit_iff (o : COpt) : o.hasBit = true ↔ o.MayBeAbsent := by cases o <;> simp [COpt.hasBit, COpt.MayBeAbsent]

theorem den_at {get : CVal → M CVal} {vc : VC} {v w : CVal} {P : Prop} (hg : get v = pure w) (h : vc.Den w P) :
    (vc.at get).Den v P := by
  cases vc <;> simp only [VC.at, VC.Den] at *
  · exact h
  · exact h
  · obtain ⟨b, h1, h2⟩ := h
    exact ⟨b, by rw [hg, Mpure_bind, h1], h2⟩
  · obtain ⟨b, h1, h2⟩ := h
    exact ⟨b, by rw [hg, Mpure_bind, h1], h2⟩

theorem free_at {get : CVal → M CVal} {vc : VC} (h : vc.Free) : (vc.at get).Free := by
  cases vc <;> simp only [VC.at, VC.Free] at *
  intro v; congr 1; funext w; exact h w

/-- A test that is skipped. -/
theorem den_when_false {cond : CVal → M Bool} {vc : VC} {v : CVal} (hc : cond v = pure false) :
    (vc.when cond).Den v True := by
  cases vc <;> simp only [VC.when, VC.Den]
  all_goals exact ⟨true, by rw [hc, Mpure_bind]; rfl, by simp⟩

theorem den_when_true {cond : CVal → M Bool} {vc : VC} {v : CVal} {P : Prop} (hc : cond v = pure true) (h : vc.Den v P) :
    (vc.when cond).Den v P := by
  cases vc <;> simp only [VC.when, VC.Den] at *
  · exact h
  · exact ⟨false, by rw [hc, Mpure_bind]; rfl, by simp [h]⟩
  · obtain ⟨b, h1, h2⟩ := h
    exact ⟨b, by rw [hc, Mpure_bind]; exact h1, h2⟩
  · obtain ⟨b, h1, h2⟩ := h
    exact ⟨b, by rw [hc, Mpure_bind]; exact h1, h2⟩

/-! ## Loops -/

theorem validLoop_den {body : CVal → Bool → M Bool} {g : CVal → Option AV} {P : AV → Prop}
    (hb : ∀ w x, g w = some x → ∃ b, body w true = pure b ∧ (b = true ↔ P x)) (arr : List CVal) :
    ∀ (n i : Nat) (xs : List AV), i + n ≤ arr.length → List.Forall₂ (fun w x => g w = some x) ((arr.drop i).take n) xs →
      ∃ b, validLoop body arr n i true = pure b ∧ (b = true ↔ ∀ x ∈ xs, P x)
  | 0, i, xs, _, h => by
    simp only [List.take_zero] at h
    cases h
    exact ⟨true, rfl, by simp⟩
  | n + 1, i, xs, hl, h => by
    have hi : i < arr.length := by omega
    rw [List.drop_eq_getElem_cons hi, List.take_succ_cons] at h
    cases h with
    | cons h1 h2 =>
      rename_i x xs
      obtain ⟨b, hb1, hb2⟩ := hb _ _ h1
      obtain ⟨c, hc1, hc2⟩ := validLoop_den hb arr n (i + 1) xs (by omega) h2
      rw [validLoop, if_pos rfl, tblGet_pure hi, Mpure_bind, hb1, Mpure_bind]
      cases b
      · refine ⟨false, ?_, ?_⟩
        · cases n <;> simp [validLoop]
        · simp only [Bool.false_eq_true, List.mem_cons, forall_eq_or_imp, false_iff, not_and]
          intro hP; simp [hP] at hb2
      · refine ⟨c, hc1, ?_⟩
        rw [hc2]
        simp only [List.mem_cons, forall_eq_or_imp]
        exact ⟨fun h => ⟨hb2.1 rfl, h⟩, fun h => h.2⟩

theorem den_loop {lo hi k : Nat} {n : Int} {arr : List CVal} {xs : List AV} {e : CTy} {vc : VC} {P : AV → Prop}
    (hk : k ≤ arr.length) (hn : (if lo = hi then lo else n.toNat) = k)
    (hm : List.Forall₂ (fun w x => meaning e w = some x) (arr.take k) xs)
    (hd : ∀ w x, meaning e w = some x → vc.Den w (P x)) :
    (vc.loop lo hi).Den (.seqOf n arr) (∀ x ∈ xs, P x) := by
  have hm0 : List.Forall₂ (fun w x => meaning e w = some x) ((arr.drop 0).take k) xs := by simpa using hm
  cases vc with
  | tt =>
    intro x hx
    obtain ⟨w, _, hw⟩ := forall2_right' hm x hx
    exact hd w x hw
  | ff =>
    simp only [VC.loop, VC.Den, forElements, hn]
    exact validLoop_den (g := meaning e) (fun w x hw => ⟨false, rfl, by simpa [VC.Den] using hd w x hw⟩) arr k 0 xs (by omega) hm0
  | expr f =>
    simp only [VC.loop, VC.Den, forElements, hn]
    exact validLoop_den (body := fun x _ => f x) (P := P) (g := meaning e) (fun w x hw => hd w x hw) arr k 0 xs (by omega) hm0
  | stat f =>
    simp only [VC.loop, VC.Den, forElements, hn]
    exact validLoop_den (g := meaning e) (fun w x hw => hd w x hw) arr k 0 xs (by omega) hm0
where
  forall2_right' {α β : Type} {P : α → β → Prop} {l : List α} {m : List β} (h : List.Forall₂ P l m) :
      ∀ y ∈ m, ∃ x ∈ l, P x y := by
    induction h with
    | nil => intro y hy; cases hy
    | cons h1 _ ih =>
      intro y hy
      rcases List.mem_cons.1 hy with rfl | hy
      · exact ⟨_, by simp, h1⟩
      · obtain ⟨x, hx, hp⟩ := ih y hy
        exact ⟨x, by simp [hx], hp⟩

/-! ## Marks -/

theorem den_seqMark {fs : CFields} {l : List (Bool × CVal)} {xs : List (Option AV)} {i : Nat} {o : COpt} {t : CTy} {m : Mark}
    (hm : meaningFields fs l = some xs) (hg : fs.get i = some (o, t)) (ho : m.Strict → o.MayBeAbsent) :
    DenList (.seq l) (seqMark i m) (m.Sat ((AV.seq xs).part i)) := by
  obtain ⟨e, v, hl, h1, h2⟩ := meaningFields_get hm hg
  cases m with
  | noMark => exact .nil trivial
  | optional => exact .nil trivial
  | present =>
    refine DenList.single ⟨e, getExist_pure hl, ?_⟩
    have ho' := (hasBit_iff o).2 (ho trivial)
    simp only [Mark.Sat, AV.part]
    cases e
    · rw [h2 ho' rfl]; simp
    · obtain ⟨x, hx, _⟩ := h1 (.inr rfl); rw [hx]; simp
  | absent =>
    refine DenList.single ⟨!e, by dsimp only; rw [getExist_pure hl]; rfl, ?_⟩
    have ho' := (hasBit_iff o).2 (ho trivial)
    simp only [Mark.Sat, AV.part]
    cases e
    · rw [h2 ho' rfl]; simp
    · obtain ⟨x, hx, _⟩ := h1 (.inr rfl); rw [hx]; simp

theorem den_choiceMark (k : Nat) (u : CVal) (x : AV) (i : Nat) (m : Mark) :
    DenList (.choice ((k : Int) + 1) u) (choiceMark i m) (m.Sat ((AV.choice k x).part i)) := by
  cases m with
  | noMark => exact .nil trivial
  | optional => exact .nil trivial
  | present =>
    refine DenList.single ⟨decide ((k : Int) + 1 = (i : Int) + 1), rfl, ?_⟩
    simp only [Mark.Sat, AV.part]
    by_cases h : k = i
    · simp [h]
    · simp [h]
  | absent =>
    refine DenList.single ⟨decide ((k : Int) + 1 ≠ (i : Int) + 1), rfl, ?_⟩
    simp only [Mark.Sat, AV.part]
    by_cases h : k = i
    · simp [h]
    · simp [h]

/-! ## Leaves -/

theorem fixed_iff {lo hi lo' hi' : Nat} (h : (if lo = hi then some lo else none) = (if lo' = hi' then some lo' else none)) :
    (lo = hi ↔ lo' = hi') ∧ (lo = hi → lo = lo') := by
  by_cases h1 : lo = hi <;> by_cases h2 : lo' = hi' <;> simp_all

theorem den_range {t : CTy} {l : RLeaf} {v : CVal} {a : AV} (hm : meaning t v = some a) (hf : (AC.range l).Fits t) :
    (acVC t (.range l)).Den v ((AC.range l).Sat a) := by
  simp only [AC.Fits] at hf
  simp only [acVC, AC.Sat]
  cases hA : t.actual <;> simp only [hA] at hf
  obtain ⟨n, rfl, rfl, h1, h2⟩ := meaning_int hm (layout_int hA)
  refine den_lift (n := n) rfl ?_
  rw [rleaf_eval _ hf.1 l n hf.2 h1 h2]
  exact ⟨fun h => ⟨n, rfl, h⟩, fun ⟨m, e, h⟩ => by cases e; exact h⟩

theorem den_realRange {t : CTy} {l : RealLeaf} {v : CVal} {a : AV} (hm : meaning t v = some a) (hf : (AC.realRange l).Fits t) :
    (acVC t (.realRange l)).Den v ((AC.realRange l).Sat a) := by
  simp only [AC.Fits] at hf
  simp only [acVC, AC.Sat]
  cases hA : t.actual <;> simp only [hA] at hf
  obtain ⟨d, rfl, rfl⟩ := meaning_real hm (layout_real hA)
  have hiff : (∃ d', AV.real d = .real d' ∧ l.Sat d') ↔ l.Sat d :=
    ⟨fun ⟨m, e, h⟩ => by cases e; exact h, fun h => ⟨d, rfl, h⟩⟩
  cases l with
  | single w => exact ⟨_, rfl, by rw [hiff]; simp [RealLeaf.Sat]⟩
  | range v1 v2 i j => exact ⟨_, rfl, by rw [hiff]; cases i <;> cases j <;> simp [RealLeaf.Sat]⟩
  | valMax v1 i => exact ⟨_, rfl, by rw [hiff]; cases i <;> simp [RealLeaf.Sat]⟩
  | minVal v2 j => exact ⟨_, rfl, by rw [hiff]; cases j <;> simp [RealLeaf.Sat]⟩

theorem den_boolean {t : CTy} {b : Bool} {v : CVal} {a : AV} (hm : meaning t v = some a) (hf : (AC.boolean b).Fits t) :
    (acVC t (.boolean b)).Den v ((AC.boolean b).Sat a) := by
  simp only [AC.Fits] at hf
  simp only [acVC, AC.Sat]
  cases hA : t.actual <;> simp only [hA] at hf
  obtain ⟨d, rfl, rfl⟩ := meaning_bool hm (layout_bool hA)
  exact ⟨_, rfl, by simp⟩

theorem den_item {t : CTy} {n : Int} {v : CVal} {a : AV} (hm : meaning t v = some a) (hf : (AC.item n).Fits t) :
    (acVC t (.item n)).Den v ((AC.item n).Sat a) := by
  simp only [AC.Fits] at hf
  simp only [acVC, AC.Sat]
  cases hA : t.actual <;> simp only [hA] at hf
  obtain ⟨d, rfl, rfl⟩ := meaning_enum hm (layout_enum hA)
  exact ⟨_, rfl, by simp⟩

theorem den_octetsVal {t : CTy} {w : List Byte} {v : CVal} {a : AV} (hm : meaning t v = some a) (hf : (AC.octetsVal w).Fits t) :
    (acVC t (.octetsVal w)).Den v ((AC.octetsVal w).Sat a) := by
  simp only [AC.Fits] at hf
  simp only [acVC, AC.Sat]
  cases hA : t.actual <;> simp only [hA] at hf
  rename_i lo hi cons
  obtain ⟨lo', hi', hL⟩ := layout_octets hA
  obtain ⟨n, arr, k, rfl, rfl, hlen, hk, h1, h2⟩ := meaning_octets hm hL
  rw [hL] at hf
  obtain ⟨f1, f2⟩ := fixed_iff hf
  refine ⟨decide (arr.take k = w), ?_, by simp⟩
  simp only [octetsValTest]
  by_cases e : lo = hi
  · have := h1 (f1.1 e)
    have := f2 e
    have := f1.1 e
    rw [if_pos e, octetStringEqual_pure (by omega) (Nat.le_refl _), List.take_length, show lo = k by omega]
  · rw [if_neg e, if_pos (by rw [h2 (fun h => e (f1.2 h))]; omega), h2 (fun h => e (f1.2 h)), Int.toNat_natCast,
      octetStringEqual_pure (by omega) (Nat.le_refl _), List.take_length]

theorem den_bitsVal {t : CTy} {w : List Bool} {v : CVal} {a : AV} (hm : meaning t v = some a) (hf : (AC.bitsVal w).Fits t) :
    (acVC t (.bitsVal w)).Den v ((AC.bitsVal w).Sat a) := by
  simp only [AC.Fits] at hf
  simp only [acVC, AC.Sat]
  cases hA : t.actual <;> simp only [hA] at hf
  rename_i lo hi cons
  obtain ⟨lo', hi', hL⟩ := layout_bits hA
  obtain ⟨n, arr, k, rfl, rfl, hlen, hk, h1, h2⟩ := meaning_bits hm hL
  rw [hL] at hf
  obtain ⟨f1, f2⟩ := fixed_iff hf
  obtain ⟨p1, p2⟩ := packBits_spec w
  refine ⟨decide ((bytesBits arr).take k = w), ?_, by simp⟩
  simp only [bitsValTest]
  by_cases e : lo = hi
  · have := h1 (f1.1 e)
    have := f2 e
    have := f1.1 e
    rw [if_pos e, bitStringEqual_pure (by omega) p1, p2, show lo = k by omega]
  · rw [if_neg e, if_pos (by rw [h2 (fun h => e (f1.2 h))]; omega), h2 (fun h => e (f1.2 h)), Int.toNat_natCast,
      bitStringEqual_pure (by omega) p1, p2]

theorem takeWhile_literal {w : List Byte} (h : 0#8 ∉ w) : (w ++ [0#8]).takeWhile (· ≠ 0#8) = w := by
  induction w with
  | nil => simp
  | cons a w ih =>
    simp only [List.mem_cons, not_or] at h
    have : a ≠ 0#8 := fun e => h.1 e.symm
    simp only [List.cons_append, List.takeWhile_cons, this, ne_eq, not_false_eq_true, decide_true, if_true]
    rw [ih h.2]

theorem den_strVal {t : CTy} {w : List Byte} {v : CVal} {a : AV} (hm : meaning t v = some a) (hf : (AC.strVal w).Fits t) :
    (acVC t (.strVal w)).Den v ((AC.strVal w).Sat a) := by
  simp only [AC.Fits] at hf
  simp only [acVC, AC.Sat]
  cases hA : t.actual <;> simp only [hA] at hf
  obtain ⟨lo', hi', hL⟩ := layout_str hA
  obtain ⟨arr, x, rfl, rfl, _, h0, _, hx⟩ := meaning_str hm hL
  refine ⟨decide (x = w), ?_, by simp⟩
  simp only [strValTest]
  rw [cStrEq_pure h0 (by simp), takeWhile_literal hf, ← hx]

theorem den_oidVal {t : CTy} {w : List U64} {v : CVal} {a : AV} (hm : meaning t v = some a) (hf : (AC.oidVal w).Fits t) :
    (acVC t (.oidVal w)).Den v ((AC.oidVal w).Sat a) := by
  simp only [AC.Fits] at hf
  simp only [acVC, AC.Sat]
  cases hA : t.actual <;> simp only [hA] at hf
  obtain ⟨o, rfl, rfl, h1, h2⟩ := meaning_oid hm (layout_oid hA)
  refine ⟨decide (o.values.take o.nCount = w), ?_, by simp⟩
  simp only [oidValTest]
  rw [oidEqual_pure h1 (by simp [oidMaxLength]; omega) h2 hf]
  simp

theorem den_sizeLeaf {t : CTy} {c : Con RLeaf} {v : CVal} {a : AV} (hm : meaning t v = some a) (hf : (AC.size c).Fits t) :
    (acVC t (.size c)).Den v ((AC.size c).Sat a) := by
  simp only [AC.Fits] at hf
  simp only [acVC, AC.Sat]
  obtain ⟨hfix, hsat, hcap, hf⟩ := hf
  have hiff : ∀ {n : Nat}, a.size = some n → ((∃ n : Nat, a.size = some n ∧ c.Sat RLeaf.Sat (n : Int)) ↔ c.Sat RLeaf.Sat (n : Int)) :=
    fun h => ⟨fun ⟨m, e, hh⟩ => by rw [h] at e; cases e; exact hh, fun hh => ⟨_, h, hh⟩⟩
  cases hA : t.actual <;> simp only [hA] at hf
  · rename_i lo hi cons
    obtain ⟨lo', hi', hL⟩ := layout_octets hA
    obtain ⟨n, arr, k, rfl, rfl, hlen, hk, h1, h2⟩ := meaning_octets hm hL
    rw [hA, hL] at hfix
    rw [hA] at hsat
    simp only [hL, CTy.capacity] at hcap
    obtain ⟨f1, f2⟩ := fixed_iff hfix
    have hs : (AV.octets (arr.take k)).size = some k := by simp only [AV.size, List.length_take]; congr 1; omega
    by_cases e : lo = hi
    · have := h1 (f1.1 e)
      have := f2 e
      have := f1.1 e
      rw [propext (hiff hs)]
      simp only [e, if_true]
      exact hsat k (by simp only [CTy.fixedSize, e, if_true]; congr 1; omega)
    · simp only [e, if_false]
      exact (den_size (by rw [getSize, h2 (fun h => e (f1.2 h))]) (by omega)).congr (hiff hs).symm
  · rename_i lo hi cons
    obtain ⟨lo', hi', hL⟩ := layout_bits hA
    obtain ⟨n, arr, k, rfl, rfl, hlen, hk, h1, h2⟩ := meaning_bits hm hL
    rw [hA, hL] at hfix
    rw [hA] at hsat
    simp only [hL, CTy.capacity] at hcap
    obtain ⟨f1, f2⟩ := fixed_iff hfix
    have hs : (AV.bits ((bytesBits arr).take k)).size = some k := by
      simp only [AV.size, List.length_take, bytesBits_length]; congr 1; omega
    by_cases e : lo = hi
    · have := h1 (f1.1 e)
      have := f2 e
      have := f1.1 e
      rw [propext (hiff hs)]
      simp only [e, if_true]
      exact hsat k (by simp only [CTy.fixedSize, e, if_true]; congr 1; omega)
    · simp only [e, if_false]
      exact (den_size (by rw [getSize, h2 (fun h => e (f1.2 h))]) (by omega)).congr (hiff hs).symm
  · obtain ⟨lo', hi', hL⟩ := layout_str hA
    obtain ⟨arr, x, rfl, rfl, hlen, h0, _, hx⟩ := meaning_str hm hL
    simp only [hL, CTy.capacity] at hcap
    have hs : (AV.str x).size = some x.length := rfl
    have hle : x.length ≤ hi' := by
      have : x.length < arr.length := by
        rw [hx]
        refine Nat.lt_of_le_of_ne (List.takeWhile_prefix _).length_le fun e => ?_
        have e2 := (List.takeWhile_prefix (l := arr) (· ≠ 0#8)).eq_of_length e
        rw [← e2] at h0
        have := List.all_eq_true.1 (List.all_takeWhile (p := (· ≠ 0#8)) (l := arr)) _ h0
        simp at this
      omega
    exact (den_size (by rw [getSize, cStrlen_pure h0, ← hx, Mpure_bind]) (by omega)).congr (hiff hs).symm
  · rename_i lo hi e cons
    obtain ⟨lo', hi', hL⟩ := layout_seqOf hA
    obtain ⟨n, arr, k, xs, rfl, rfl, hlen, hk, h1, h2, hxs⟩ := meaning_seqOf hm hL
    rw [hA, hL] at hfix
    rw [hA] at hsat
    simp only [hL, CTy.capacity] at hcap
    obtain ⟨f1, f2⟩ := fixed_iff hfix
    have hs : (AV.seqOf xs).size = some k := by
      simp only [AV.size, ← hxs.length_eq, List.length_take]; congr 1; omega
    by_cases e : lo = hi
    · have := h1 (f1.1 e)
      have := f2 e
      have := f1.1 e
      rw [propext (hiff hs)]
      simp only [e, if_true]
      exact hsat k (by simp only [CTy.fixedSize, e, if_true]; congr 1; omega)
    · simp only [e, if_false]
      exact (den_size (by rw [getSize, h2 (fun h => e (f1.2 h))]) (by omega)).congr (hiff hs).symm

theorem den_alphabet {t : CTy} {c : Con AlphaLeaf} {v : CVal} {a : AV} (hm : meaning t v = some a) (hf : (AC.alphabet c).Fits t) :
    (acVC t (.alphabet c)).Den v ((AC.alphabet c).Sat a) := by
  simp only [AC.Fits] at hf
  simp only [acVC, AC.Sat]
  cases hA : t.actual <;> simp only [hA] at hf
  obtain ⟨lo', hi', hL⟩ := layout_str hA
  obtain ⟨arr, x, rfl, rfl, _, h0, hlt, hx⟩ := meaning_str hm hL
  refine ⟨x.all (alphaTest c), ?_, ?_⟩
  · simp only [alphabetTest]
    rw [charsAreValid_pure h0, ← hx]
  · rw [List.all_eq_true]
    constructor
    · exact fun h => ⟨x, rfl, fun ch hch => (alphaTest_iff (hlt ch hch) c hf).1 (h ch hch)⟩
    · rintro ⟨l, e, h⟩ ch hch
      cases e
      exact (alphaTest_iff (hlt ch hch) c hf).2 (h ch hch)

/-! ## Independence of `ret` -/

theorem free_seqMark (i : Nat) (m : Mark) (rest : List VC) (h : m.Strict ∨ FreeList rest) : FreeList (seqMark i m ++ rest) := by
  cases m <;> simp only [Mark.Strict, false_or] at h
  · exact h
  · exact ⟨trivial, .inl rfl⟩
  · exact ⟨trivial, .inl rfl⟩
  · exact h

theorem free_choiceMark (i : Nat) (m : Mark) (rest : List VC) (h : m.Strict ∨ FreeList rest) : FreeList (choiceMark i m ++ rest) := by
  cases m <;> simp only [Mark.Strict, false_or] at h
  · exact h
  · exact ⟨trivial, .inl rfl⟩
  · exact ⟨trivial, .inl rfl⟩
  · exact h

mutual
theorem free_acVC : ∀ (t : CTy) (c : AC), c.Definite t → (acVC t c).Free
  | t, .union c d, h => by
    simp only [AC.Definite] at h; simp only [acVC]; exact free_or (free_acVC t c h.1) (free_acVC t d h.2)
  | t, .inter c d, h => by
    simp only [AC.Definite] at h; simp only [acVC]; exact free_and (free_acVC t c h.1) (free_acVC t d h.2)
  | t, .allExcept c, h => by
    simp only [AC.Definite] at h; simp only [acVC]; exact free_not (free_acVC t c h)
  | t, .except c d, h => by
    simp only [AC.Definite] at h; simp only [acVC]; exact free_except (free_acVC t c h.1) (free_acVC t d h.2)
  | t, .root c, h => by
    simp only [AC.Definite] at h; simp only [acVC]; exact free_acVC t c h
  | t, .root2 c d, h => by
    simp only [AC.Definite] at h; simp only [acVC]; exact free_or (free_acVC t c h.1) (free_acVC t d h.2)
  | t, .range l, _ => by
    simp only [acVC]; split
    · exact free_lift _ _
    · exact fun _ => rfl
  | t, .realRange l, _ => by
    simp only [acVC]; split
    · trivial
    · exact fun _ => rfl
  | t, .boolean l, _ => by
    simp only [acVC]; split
    · trivial
    · exact fun _ => rfl
  | t, .item l, _ => by
    simp only [acVC]; split
    · trivial
    · exact fun _ => rfl
  | t, .octetsVal l, _ => by
    simp only [acVC]; split
    · trivial
    · exact fun _ => rfl
  | t, .bitsVal l, _ => by
    simp only [acVC]; split
    · trivial
    · exact fun _ => rfl
  | t, .strVal l, _ => by
    simp only [acVC]; split
    · trivial
    · exact fun _ => rfl
  | t, .oidVal l, _ => by
    simp only [acVC]; split
    · trivial
    · exact fun _ => rfl
  | t, .size l, _ => by
    simp only [acVC]
    split
    · split
      · trivial
      · exact free_lift _ _
    · split
      · trivial
      · exact free_lift _ _
    · split
      · trivial
      · exact free_lift _ _
    · exact free_lift _ _
    · exact fun _ => rfl
  | t, .alphabet l, _ => by
    simp only [acVC]; split
    · trivial
    · exact fun _ => rfl
  | t, .value l, _ => by
    simp only [acVC]; split
    · trivial
    · trivial
    · trivial
    · exact fun _ => rfl
  | t, .component c, h => by simp only [AC.Definite] at h
  | t, .components ncs, h => by
    simp only [AC.Definite] at h
    simp only [acVC]
    cases hA : t.actual <;> simp only [hA] at h ⊢
    · exact free_multiAnd (free_ncVCs _ ncs h)
    · exact free_multiAnd (free_ncVCsChoice _ ncs h)
theorem free_ncVCs : ∀ (fs : CFields) (ncs : NCs), ncs.DefiniteSeq fs → FreeList (ncVCs fs ncs)
  | _, .nil, _ => by simp only [ncVCs]; trivial
  | fs, .bare i m rest, h => by
    simp only [NCs.DefiniteSeq] at h
    simp only [ncVCs]
    exact free_seqMark i m _ (h.imp_right (free_ncVCs fs rest))
  | fs, .cons i m c rest, h => by
    simp only [NCs.DefiniteSeq] at h
    simp only [ncVCs]
    cases hg : fs.get i with
    | none => exact ⟨fun _ => rfl, .inl rfl⟩
    | some p =>
      obtain ⟨o, t⟩ := p
      simp only [hg] at h ⊢
      rw [List.append_assoc]
      refine free_seqMark i m _ (h.imp_right fun h => ?_)
      have ho : o.hasBit = false := by
        cases hb : o.hasBit
        · rfl
        · exact absurd ((hasBit_iff o).1 hb) h.1.1
      rw [ho]
      exact ⟨free_at (free_acVC t c h.1.2), .inr (free_ncVCs fs rest h.2)⟩
theorem free_ncVCsChoice : ∀ (alts : CAlts) (ncs : NCs), ncs.DefiniteChoice → FreeList (ncVCsChoice alts ncs)
  | _, .nil, _ => by simp only [ncVCsChoice]; trivial
  | alts, .bare i m rest, h => by
    simp only [NCs.DefiniteChoice] at h
    simp only [ncVCsChoice]
    exact free_choiceMark i m _ (h.imp_right (free_ncVCsChoice alts rest))
  | alts, .cons i m c rest, h => by
    simp only [NCs.DefiniteChoice] at h
    simp only [ncVCsChoice]
    cases hg : alts.get i with
    | none => exact ⟨fun _ => rfl, .inl rfl⟩
    | some t =>
      simp only [List.append_assoc]
      exact free_choiceMark i m _ (.inl h)
end

/-! ## The code for a constraint -/

mutual
theorem den_acVC : ∀ (t : CTy) (c : AC) (v : CVal) (a : AV), meaning t v = some a → c.Fits t → (acVC t c).Den v (c.Sat a)
  | t, .union c d, v, a, hm, hf => by
    simp only [AC.Fits] at hf; simp only [acVC, AC.Sat]
    exact den_or (den_acVC t c v a hm hf.1) (den_acVC t d v a hm hf.2.1) (free_acVC t d hf.2.2)
  | t, .inter c d, v, a, hm, hf => by
    simp only [AC.Fits] at hf; simp only [acVC, AC.Sat]
    exact den_and (den_acVC t c v a hm hf.1) (den_acVC t d v a hm hf.2)
  | t, .allExcept c, v, a, hm, hf => by
    simp only [AC.Fits] at hf; simp only [acVC, AC.Sat]
    exact den_not (den_acVC t c v a hm hf)
  | t, .except c d, v, a, hm, hf => by
    simp only [AC.Fits] at hf; simp only [acVC, AC.Sat]
    exact den_except (den_acVC t c v a hm hf.1) (den_acVC t d v a hm hf.2)
  | t, .root c, v, a, hm, hf => by
    simp only [AC.Fits] at hf; simp only [acVC, AC.Sat]
    exact den_acVC t c v a hm hf
  | t, .root2 c d, v, a, hm, hf => by
    simp only [AC.Fits] at hf; simp only [acVC, AC.Sat]
    exact den_or (den_acVC t c v a hm hf.1) (den_acVC t d v a hm hf.2.1) (free_acVC t d hf.2.2)
  | t, .range l, v, a, hm, hf => den_range hm hf
  | t, .realRange l, v, a, hm, hf => den_realRange hm hf
  | t, .boolean b, v, a, hm, hf => den_boolean hm hf
  | t, .item i, v, a, hm, hf => den_item hm hf
  | t, .octetsVal w, v, a, hm, hf => den_octetsVal hm hf
  | t, .bitsVal w, v, a, hm, hf => den_bitsVal hm hf
  | t, .strVal w, v, a, hm, hf => den_strVal hm hf
  | t, .oidVal w, v, a, hm, hf => den_oidVal hm hf
  | t, .size c, v, a, hm, hf => den_sizeLeaf hm hf
  | t, .alphabet c, v, a, hm, hf => den_alphabet hm hf
  | t, .value w, v, a, hm, hf => by simp only [AC.Fits] at hf
  | t, .component c, v, a, hm, hf => by
    simp only [AC.Fits] at hf
    simp only [acVC, AC.Sat]
    cases hA : t.actual <;> simp only [hA] at hf
    rename_i lo hi e cons
    obtain ⟨lo', hi', hL⟩ := layout_seqOf hA
    obtain ⟨n, arr, k, xs, rfl, rfl, hlen, hk, h1, h2, hxs⟩ := meaning_seqOf hm hL
    obtain ⟨hfix, hf⟩ := hf
    rw [hL] at hfix
    obtain ⟨f1, f2⟩ := fixed_iff hfix
    have hn : (if lo = hi then lo else n.toNat) = k := by
      by_cases e : lo = hi
      · have := h1 (f1.1 e)
        have := f2 e
        have := f1.1 e
        rw [if_pos e]; omega
      · rw [if_neg e, h2 (fun h => e (f1.2 h))]; simp
    refine (den_loop (P := c.Sat) (by omega) hn hxs (fun w x hw => den_acVC e c w x hw hf)).congr ?_
    exact ⟨fun h => ⟨xs, rfl, h⟩, fun ⟨l, e, h⟩ => by cases e; exact h⟩
  | t, .components ncs, v, a, hm, hf => by
    simp only [AC.Fits] at hf
    simp only [acVC, AC.Sat]
    cases hA : t.actual <;> simp only [hA] at hf
    · obtain ⟨l, xs, rfl, rfl, hx⟩ := meaning_seq hm (layout_seq hA)
      exact den_multiAnd (den_ncVCs _ ncs l xs hx hf)
    · obtain ⟨k, u, x, rfl, rfl, hx⟩ := meaning_choice hm (layout_choice hA)
      exact den_multiAnd (den_ncVCsChoice _ ncs k u x hx hf)
theorem den_ncVCs : ∀ (fs : CFields) (ncs : NCs) (l : List (Bool × CVal)) (xs : List (Option AV)), meaningFields fs l = some xs →
    ncs.FitsSeq fs → DenList (.seq l) (ncVCs fs ncs) (ncs.Sat (.seq xs))
  | fs, .nil, l, xs, hm, hf => by simp only [ncVCs, NCs.Sat]; exact .nil trivial
  | fs, .bare i m rest, l, xs, hm, hf => by
    simp only [NCs.FitsSeq] at hf
    simp only [ncVCs, NCs.Sat]
    obtain ⟨hg, hr⟩ := hf
    cases h : fs.get i with
    | none => simp [h] at hg
    | some p =>
      obtain ⟨o, t⟩ := p
      simp only [h] at hg
      exact (den_seqMark hm h hg).append (den_ncVCs fs rest l xs hm hr)
  | fs, .cons i m c rest, l, xs, hm, hf => by
    simp only [NCs.FitsSeq] at hf
    simp only [ncVCs, NCs.Sat]
    obtain ⟨hg, hr⟩ := hf
    cases h : fs.get i with
    | none => simp [h] at hg
    | some p =>
      obtain ⟨o, t⟩ := p
      simp only [h] at hg ⊢
      obtain ⟨hg, hc⟩ := hg
      rw [List.append_assoc]
      refine (den_seqMark hm h hg).append (DenList.append (DenList.single ?_) (den_ncVCs fs rest l xs hm hr))
      obtain ⟨e, v, hl, h1, h2⟩ := meaningFields_get hm h
      have hpart : ∀ x, xs[i]? = some (some x) → ((∀ y, (AV.seq xs).part i = some y → c.Sat y) ↔ c.Sat x) := by
        intro x hx
        simp only [AV.part, hx, Option.join_some, Option.some.injEq]
        exact ⟨fun h => h x rfl, fun h y e => e ▸ h⟩
      cases hb : o.hasBit
      · obtain ⟨x, hx, hv⟩ := h1 (.inl hb)
        simp only [Bool.false_eq_true, if_false]
        exact (den_at (getComp_pure hl) (den_acVC t c v x hv hc)).congr (hpart x hx).symm
      · simp only [if_true]
        cases e
        · have hn := h2 hb rfl
          refine (den_when_false (getExist_pure hl)).congr ?_
          simp [AV.part, hn]
        · obtain ⟨x, hx, hv⟩ := h1 (.inr rfl)
          exact (den_when_true (getExist_pure hl) (den_at (getComp_pure hl) (den_acVC t c v x hv hc))).congr (hpart x hx).symm
theorem den_ncVCsChoice : ∀ (alts : CAlts) (ncs : NCs) (k : Nat) (u : CVal) (x : AV), meaningAlt alts k u = some x →
    ncs.FitsChoice alts → DenList (.choice ((k : Int) + 1) u) (ncVCsChoice alts ncs) (ncs.Sat (.choice k x))
  | alts, .nil, k, u, x, hm, hf => by simp only [ncVCsChoice, NCs.Sat]; exact .nil trivial
  | alts, .bare i m rest, k, u, x, hm, hf => by
    simp only [NCs.FitsChoice] at hf
    simp only [ncVCsChoice, NCs.Sat]
    exact (den_choiceMark k u x i m).append (den_ncVCsChoice alts rest k u x hm hf.2)
  | alts, .cons i m c rest, k, u, x, hm, hf => by
    simp only [NCs.FitsChoice] at hf
    simp only [ncVCsChoice, NCs.Sat]
    obtain ⟨hg, hr⟩ := hf
    cases h : alts.get i with
    | none => simp [h] at hg
    | some t =>
      simp only [h] at hg ⊢
      rw [List.append_assoc]
      refine (den_choiceMark k u x i m).append (DenList.append (DenList.single ?_) (den_ncVCsChoice alts rest k u x hm hr))
      by_cases e : k = i
      · subst e
        have hv := meaningAlt_get hm h
        refine VC.Den.congr (den_when_true (P := c.Sat x) ?_ (den_at (w := u) rfl (den_acVC t c u x hv hg))) ?_
        · simp [getKind]
        simp only [AV.part, if_true, Option.some.injEq]
        exact ⟨fun h y e => e ▸ h, fun h => h x rfl⟩
      · refine VC.Den.congr (den_when_false ?_) ?_
        · simp [getKind, e]
        · simp [AV.part, e]
end

end Asn1
