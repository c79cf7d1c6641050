import Verif.Proof.InitLeaf
/-!
# Initialisation of all types
-/
namespace Asn1

/-! ## Stores -/

theorem memSet_ok {α : Type} {arr : List α} {c : α} {n : Nat} (h : n ≤ arr.length) (s : BitStream) :
    memSet arr c n s = .ok (List.replicate n c ++ arr.drop n, s) := by
  unfold memSet; rw [if_pos h]; rfl

theorem putAll_ok {α : Type} {arr vals : List α} (h : vals.length ≤ arr.length) (s : BitStream) :
    putAll arr vals s = .ok (vals ++ arr.drop vals.length, s) := by
  unfold putAll; rw [if_pos h]; rfl

theorem literalArr_ok {hi : Nat} {bytes : List Byte} (h : bytes.length ≤ hi) (s : BitStream) :
    literalArr hi bytes s = .ok (bytes ++ List.replicate (hi - bytes.length) 0#8, s) := by
  unfold literalArr; rw [if_pos h]; rfl

theorem counted_append {α : Type} {l r : List α} {hi : Nat} (h : l.length ≤ hi) :
    counted (l.length : Int) hi (l ++ r) = some l := by
  unfold counted
  rw [if_pos ⟨by omega, by omega⟩]
  simp

/-- What the count says, or the whole array. -/
theorem counted_prefix {α : Type} {l r : List α} {lo hi : Nat} {n : Int} (h : l.length ≤ hi) (hlen : (l ++ r).length = hi)
    (hfix : lo = hi → l.length = hi) (hn : lo ≠ hi → n = l.length) :
    (if lo = hi then some (l ++ r) else counted n hi (l ++ r)) = some l := by
  by_cases hl : lo = hi
  · rw [if_pos hl]
    have := hfix hl
    have hr : r = [] := by
      simp only [List.length_append] at hlen
      exact List.length_eq_zero_iff.1 (by omega)
    rw [hr, List.append_nil]
  · rw [if_neg hl, hn hl]
    exact counted_append h

theorem byteBits_zero : byteBits 0#8 = List.replicate 8 false := by decide

theorem bytesBits_replicate_zero (n : Nat) (r : List Byte) :
    bytesBits (List.replicate n 0#8 ++ r) = List.replicate (8 * n) false ++ bytesBits r := by
  induction n with
  | zero => rfl
  | succ n ih =>
    rw [List.replicate_succ, List.cons_append]
    show byteBits 0#8 ++ bytesBits _ = _
    rw [ih, byteBits_zero, ← List.append_assoc, List.replicate_append_replicate]
    congr 2
    omega

theorem initElems_ok {f : CVal → M CVal} {P : CVal → Prop} {Q : CVal → Prop} (hf : ∀ v s, P v → ∃ w, f v s = .ok (w, s) ∧ Q w) :
    ∀ (n : Nat) (l : List CVal), n ≤ l.length → (∀ x ∈ l, P x) → ∀ s, ∃ m r, initElems f n l s = .ok (m ++ r, s) ∧
      m.length = n ∧ (∀ x ∈ m, Q x) ∧ r = l.drop n := by
  intro n
  induction n with
  | zero => intro l _ _ s; exact ⟨[], l, rfl, rfl, by simp, rfl⟩
  | succ n ih =>
    intro l hn hp s
    cases l with
    | nil => simp at hn
    | cons x xs =>
      obtain ⟨w, hw, hq⟩ := hf x s (hp x (List.mem_cons_self ..))
      obtain ⟨m, r, hm, hl, hQ, hr⟩ := ih xs (by simpa using hn) (fun y hy => hp y (List.mem_cons_of_mem _ hy)) s
      refine ⟨w :: m, r, ?_, by simp [hl], ?_, by simpa using hr⟩
      · simp only [initElems]
        rw [bind_ok hw, bind_ok hm]; rfl
      · intro y hy
        rcases List.mem_cons.1 hy with rfl | hy
        · exact hq
        · exact hQ y hy

theorem initElemsBy_ok {f : AV → CVal → M CVal} {P : AV → Prop} {L : CVal → Prop} {g : CVal → Option AV}
    (hf : ∀ a v s, P a → L v → ∃ w, f a v s = .ok (w, s) ∧ g w = some a ∧ L w) :
    ∀ (vals : List AV) (l : List CVal), vals.length ≤ l.length → (∀ x ∈ vals, P x) → (∀ x ∈ l, L x) →
      ∀ s, ∃ m, initElemsBy f vals l s = .ok (m ++ l.drop vals.length, s) ∧ m.length = vals.length ∧
        m.mapM g = some vals ∧ ∀ x ∈ m, L x := by
  intro vals
  induction vals with
  | nil => intro l _ _ _ s; exact ⟨[], rfl, rfl, rfl, by simp⟩
  | cons a vals ih =>
    intro l hn hp hL s
    cases l with
    | nil => simp at hn
    | cons x xs =>
      obtain ⟨w, hw, hg, hlw⟩ := hf a x s (hp a (List.mem_cons_self ..)) (hL x (List.mem_cons_self ..))
      obtain ⟨m, hm, hl, hgm, hlm⟩ := ih xs (by simpa using hn) (fun y hy => hp y (List.mem_cons_of_mem _ hy))
        (fun y hy => hL y (List.mem_cons_of_mem _ hy)) s
      refine ⟨w :: m, ?_, by simp [hl], ?_, ?_⟩
      · simp only [initElemsBy]
        rw [bind_ok hw, bind_ok hm]; rfl
      · rw [List.mapM_cons, hg, hgm]; rfl
      · intro y hy
        rcases List.mem_cons.1 hy with rfl | hy
        · exact hlw
        · exact hlm y hy

theorem mapM_const {g : CVal → Option AV} {a : AV} : ∀ l : List CVal, (∀ x ∈ l, g x = some a) →
    l.mapM g = some (List.replicate l.length a) := by
  intro l
  induction l with
  | nil => intro _; rfl
  | cons x xs ih =>
    intro h
    rw [List.mapM_cons, h x (List.mem_cons_self ..), ih fun y hy => h y (List.mem_cons_of_mem _ hy)]
    rfl

theorem takeWhile_stop {l r : List Byte} (h : ∀ c ∈ l, c ≠ 0#8) : (l ++ 0#8 :: r).takeWhile (· ≠ 0#8) = l := by
  rw [List.takeWhile_append_of_pos (by simpa using h)]
  simp

theorem cString_ok {l r : List Byte} (h : ∀ c ∈ l, c ≠ 0#8 ∧ c.toNat < 128) : cString (l ++ 0#8 :: r) = some l := by
  unfold cString
  rw [takeWhile_stop fun c hc => (h c hc).1, if_pos ⟨by simp, fun c hc => (h c hc).2⟩]

theorem packBits_length (w : List Bool) : (packBits w).length = (w.length + 7) / 8 := by
  fun_induction packBits w with
  | case1 => rfl
  | case2 b0 b1 b2 b3 b4 b5 b6 b7 rest ih => simp only [List.length_cons, ih]; omega
  | case3 l h1 h2 =>
    have h8 : l.length < 8 := by
      by_contra hc
      match l, hc, h2 with
      | b0 :: b1 :: b2 :: b3 :: b4 :: b5 :: b6 :: b7 :: rest, _, h2 => exact h2 b0 b1 b2 b3 b4 b5 b6 b7 rest rfl
      | [], hc, _ => simp at hc
      | [_], hc, _ => simp at hc
      | [_, _], hc, _ => simp at hc
      | [_, _, _], hc, _ => simp at hc
      | [_, _, _, _], hc, _ => simp at hc
      | [_, _, _, _, _], hc, _ => simp at hc
      | [_, _, _, _, _, _], hc, _ => simp at hc
      | [_, _, _, _, _, _, _], hc, _ => simp at hc
    have h0 : l.length ≠ 0 := fun h => h1 (List.length_eq_zero_iff.1 h)
    simp only [List.length_singleton]
    omega

/-! ## Declared values -/

/-- The object denotes the value and has the layout. -/
def Denotes (t : CTy) (a : AV) (w : CVal) : Prop := meaning t w = some a ∧ HasLayout t w

section
variable {junk : CTy → CVal} (hj : ∀ u, HasLayout u (junk u))
include hj

mutual
theorem byValue_ok : ∀ (t : CTy) (sz : Option (Nat × Nat)) (a : AV) (v : CVal) (s : BitStream), t.Storable sz a →
    HasLayout t v → ∃ w, initByValue junk t sz a v s = .ok (w, s) ∧ meaning t w = some a ∧ HasLayout t w
  | .int cls cons, sz, a, v, s, hs, hl => by
    cases a <;> simp only [CTy.Storable] at hs
    cases v <;> simp only [HasLayout] at hl
    refine ⟨_, rfl, ?_, by simp only [HasLayout]⟩
    simp only [meaning]
    rw [storeInt_id hs.1 hs.2, if_pos hs]
  | .bool cons, sz, a, v, s, hs, hl => by
    cases a <;> simp only [CTy.Storable] at hs
    cases v <;> simp only [HasLayout] at hl
    exact ⟨_, rfl, rfl, trivial⟩
  | .null, sz, a, v, s, hs, hl => by
    cases a <;> simp only [CTy.Storable] at hs
    cases v <;> simp only [HasLayout] at hl
    exact ⟨_, rfl, rfl, trivial⟩
  | .enum items cons, sz, a, v, s, hs, hl => by
    cases a <;> simp only [CTy.Storable] at hs
    cases v <;> simp only [HasLayout] at hl
    refine ⟨_, rfl, ?_, trivial⟩
    simp only [meaning]; rw [if_pos hs]
  | .octets lo hi cons, sz, a, v, s, hs, hl => by
    cases a <;> simp only [CTy.Storable] at hs
    rename_i l
    cases v <;> simp only [HasLayout] at hl
    rename_i n arr
    obtain ⟨h1, h2, h3⟩ := hs
    have hlen : (l ++ arr.drop l.length).length = hi := by simp; omega
    refine ⟨.octets (if (sz.getD (lo, hi)).1 = (sz.getD (lo, hi)).2 then n else l.length) (l ++ arr.drop l.length), ?_, ?_, hlen⟩
    · simp only [initByValue]
      rw [bind_ok (putAll_ok (by omega) s)]; rfl
    · simp only [meaning]
      rw [if_pos hlen, counted_prefix h1 hlen h2 (fun hne => by rw [if_neg fun h => hne (h3 h)])]; rfl
  | .bits lo hi cons, sz, a, v, s, hs, hl => by
    cases a <;> simp only [CTy.Storable] at hs
    rename_i l
    cases v <;> simp only [HasLayout] at hl
    rename_i n arr
    obtain ⟨h1, h2, h3, h4⟩ := hs
    have hpl := packBits_length l
    have hlen : (packBits l ++ arr.drop (packBits l).length).length = (hi + 7) / 8 := by simp; omega
    refine ⟨.bits (if (sz.getD (lo, hi)).1 = (sz.getD (lo, hi)).2 then n else (packBits l).length)
      (packBits l ++ arr.drop (packBits l).length), ?_, ?_, hlen⟩
    · simp only [initByValue]
      rw [bind_ok (putAll_ok (by omega) s)]; rfl
    · simp only [meaning]
      rw [if_pos hlen]
      have hp := packBits_spec l
      have htake : (bytesBits (packBits l ++ arr.drop (packBits l).length)).take l.length = l := by
        have : bytesBits (packBits l ++ arr.drop (packBits l).length)
            = bytesBits (packBits l) ++ bytesBits (arr.drop (packBits l).length) := by
          simp [bytesBits]
        rw [this, List.take_append_of_le_length, hp.2]
        have : (bytesBits (packBits l)).length = 8 * (packBits l).length := by
          generalize packBits l = m
          induction m with
          | nil => rfl
          | cons x xs ih =>
            show (byteBits x ++ bytesBits xs).length = _
            rw [List.length_append, ih, List.length_cons]
            have : (byteBits x).length = 8 := by simp [byteBits]
            omega
        omega
      by_cases hlh : lo = hi
      · rw [if_pos hlh, ← h2 hlh, htake]; rfl
      · have h5 := h3 hlh
        have h6 : (packBits l).length = l.length := by omega
        rw [if_neg hlh, if_neg fun h => hlh (h4 h), h6]
        unfold counted
        rw [if_pos ⟨by omega, by omega⟩]
        have : ((l.length : Int)).toNat = l.length := by omega
        rw [this, ← h6, h6, ← h6] 
        rw [h6] at htake ⊢
        rw [htake]; rfl
  | .str lo hi al cons, sz, a, v, s, hs, hl => by
    cases a <;> simp only [CTy.Storable] at hs
    rename_i l
    cases v <;> simp only [HasLayout] at hl
    rename_i arr
    obtain ⟨h1, h2⟩ := hs
    have hlit : cLiteralOf l s = .ok (l, s) := by
      unfold cLiteralOf
      rw [if_neg fun h => (h2 _ h).2.2.2 rfl]
      have : l.filter (· ≠ 0x22#8) = l := List.filter_eq_self.2 fun c hc => by simpa using (h2 c hc).2.2.1
      rw [this]; rfl
    have htw : l.takeWhile (· ≠ 0#8) = l := by
      have := List.takeWhile_append_of_pos (p := fun c : Byte => decide (c ≠ 0#8)) (l₁ := l) (l₂ := [])
        (by simpa using fun c hc => (h2 c hc).1)
      simpa using this
    have hcpy : strCpy arr l s = .ok ((l ++ [0#8]) ++ arr.drop (l ++ [0#8]).length, s) := by
      unfold strCpy
      rw [htw, putAll_ok (by simp; omega)]
    refine ⟨.str ((l ++ [0#8]) ++ arr.drop (l ++ [0#8]).length), ?_, ?_, ?_⟩
    · simp only [initByValue]
      rw [bind_ok hlit, bind_ok hcpy]; rfl
    · simp only [meaning]
      rw [if_pos (by simp; omega), List.append_assoc]
      show Option.map AV.str (cString (l ++ 0#8 :: _)) = _
      rw [cString_ok fun c hc => ⟨(h2 c hc).1, (h2 c hc).2.1⟩]; rfl
    · simp only [HasLayout]; simp; omega
  | .oid rel cons, sz, a, v, s, hs, hl => by
    cases a <;> simp only [CTy.Storable] at hs
    rename_i l
    cases v <;> simp only [HasLayout] at hl
    rename_i o
    refine ⟨.oid ⟨l.length, l ++ o.values.drop l.length⟩, ?_, ?_, ?_⟩
    · simp only [initByValue]
      rw [bind_ok (putAll_ok (by omega) s)]; rfl
    · simp only [meaning]
      rw [if_pos ⟨by simp; omega, hs⟩]
      simp
    · simp only [HasLayout]; simp; omega
  | .real cons, sz, a, v, s, hs, hl => by
    cases a <;> simp only [CTy.Storable] at hs
    cases v <;> simp only [HasLayout] at hl
    exact ⟨_, rfl, rfl, trivial⟩
  | .seq fs cons, sz, a, v, s, hs, hl => by
    cases a <;> simp only [CTy.Storable] at hs
    cases v <;> simp only [HasLayout] at hl
    obtain ⟨w, hw, hm, hL⟩ := byFields_ok fs _ _ s hs hl
    refine ⟨.seq w, ?_, ?_, hL⟩
    · simp only [initByValue]; rw [bind_ok hw]; rfl
    · simp only [meaning, hm]; rfl
  | .seqOf lo hi t cons, sz, a, v, s, hs, hl => by
    cases a <;> simp only [CTy.Storable] at hs
    rename_i l
    cases v <;> simp only [HasLayout] at hl
    rename_i n arr
    obtain ⟨h1, h2, h3, h4⟩ := hs
    obtain ⟨m, hm, hml, hmm, hmL⟩ := initElemsBy_ok (f := initByValue junk t none) (P := t.Storable none) (L := HasLayout t)
      (g := meaning t) (fun a v s hp hL => byValue_ok t none a v s hp hL) l arr (by omega) h4 hl.2 s
    have hlen : (m ++ arr.drop l.length).length = hi := by simp; omega
    refine ⟨.seqOf (if (sz.getD (lo, hi)).1 = (sz.getD (lo, hi)).2 then n else l.length) (m ++ arr.drop l.length), ?_, ?_, ?_⟩
    · simp only [initByValue]
      rw [bind_ok hm]; rfl
    · simp only [meaning]
      rw [if_pos hlen, counted_prefix (by omega) hlen (fun h => by rw [hml, h2 h])
        (fun hne => by rw [if_neg fun h => hne (h3 h), hml])]
      simp only [Option.bind_some, hmm]; rfl
    · simp only [HasLayout]
      refine ⟨hlen, fun x hx => ?_⟩
      rcases List.mem_append.1 hx with hx | hx
      · exact hmL x hx
      · exact hl.2 x (List.mem_of_mem_drop hx)
  | .choice alts cons, sz, a, v, s, hs, hl => by
    cases a <;> simp only [CTy.Storable] at hs
    rename_i i x
    cases v <;> simp only [HasLayout] at hl
    obtain ⟨w, hw, hm⟩ := byAlt_ok alts i x s hs
    refine ⟨.choice (i + 1) w, ?_, ?_, trivial⟩
    · simp only [initByValue]; rw [bind_ok hw]; rfl
    · simp only [meaning]
      have : ((i : Int) + 1).toNat - 1 = i := by omega
      rw [if_pos (by omega), this, hm]; rfl
  | .ref t sz' cons, sz, a, v, s, hs, hl => by
    simp only [CTy.Storable] at hs
    simp only [HasLayout] at hl
    simpa only [initByValue, meaning, HasLayout] using byValue_ok t _ a v s hs hl
theorem byFields_ok : ∀ (fs : CFields) (l : List (Option AV)) (m : List (Bool × CVal)) (s : BitStream), fs.Storable l →
    HasLayoutFields fs m → ∃ w, initFieldsByValue junk fs l m s = .ok (w, s) ∧ meaningFields fs w = some l ∧
      HasLayoutFields fs w
  | .nil, [], [], s, hs, hl => ⟨[], rfl, rfl, trivial⟩
  | .nil, [], _ :: _, s, hs, hl => hl.elim
  | .nil, _ :: _, _, s, hs, hl => hs.elim
  | .cons o t rest, [], _, s, hs, hl => by simp only [CFields.Storable] at hs
  | .cons o t rest, _ :: _, [], s, hs, hl => hl.elim
  | .cons o t rest, some x :: xs, (e, v) :: vs, s, hs, hl => by
    simp only [CFields.Storable] at hs
    simp only [HasLayoutFields] at hl
    obtain ⟨w, hw, hm, hL⟩ := byValue_ok t none x v s hs.1 hl.1
    obtain ⟨ws, hws, hms, hLs⟩ := byFields_ok rest xs vs s hs.2 hl.2
    refine ⟨(if o.hasBit then true else e, w) :: ws, ?_, ?_, ⟨hL, hLs⟩⟩
    · simp only [initFieldsByValue]
      rw [bind_ok hw, bind_ok hws]; rfl
    · cases o <;> simp [meaningFields, COpt.hasBit, hm, hms]
  | .cons o t rest, none :: xs, (e, v) :: vs, s, hs, hl => by
    simp only [HasLayoutFields] at hl
    cases o with
    | mandatory => exact hs.elim
    | _ =>
      simp only [CFields.Storable] at hs
      obtain ⟨ws, hws, hms, hLs⟩ := byFields_ok rest xs vs s hs hl.2
      refine ⟨(false, v) :: ws, ?_, ?_, ⟨hl.1, hLs⟩⟩
      · simp only [initFieldsByValue]
        rw [bind_ok hws]; rfl
      · simp [meaningFields, hms]
theorem byAlt_ok : ∀ (alts : CAlts) (i : Nat) (x : AV) (s : BitStream), alts.Storable i x →
    ∃ w, initAltByValue junk alts i x s = .ok (w, s) ∧ meaningAlt alts i w = some x
  | .nil, _, _, _, hs => hs.elim
  | .cons t rest, 0, x, s, hs => by
    simp only [CAlts.Storable] at hs
    obtain ⟨w, hw, hm, _⟩ := byValue_ok t none x (junk t) s hs (hj t)
    exact ⟨w, hw, hm⟩
  | .cons t rest, i + 1, x, s, hs => by
    simp only [CAlts.Storable] at hs
    exact byAlt_ok rest i x s hs
end
end

/-! ## Initialize -/

/-- From every memory the statements make the same value. -/
def Makes (t : CTy) (f : (CTy → CVal) → CVal → M CVal) (a : AV) : Prop :=
  ∀ junk, (∀ u, HasLayout u (junk u)) → ∀ v s, HasLayout t v →
    ∃ w, f junk v s = .ok (w, s) ∧ meaning t w = some a ∧ HasLayout t w

theorem satAll_append {c d : List AC} {a : AV} : SatAll (c ++ d) a ↔ SatAll c a ∧ SatAll d a := by
  simp only [SatAll, List.mem_append]
  exact ⟨fun h => ⟨fun c hc => h c (.inl hc), fun c hc => h c (.inr hc)⟩, fun h c hc => hc.elim (h.1 c) (h.2 c)⟩

mutual
theorem initT_ok : ∀ (t : CTy) (acc : List AC) (sz : Option (Nat × Nat)), t.InitOk acc sz →
    ∃ a, (t.Sat a ∧ SatAll acc a) ∧ Makes t (fun junk => initT junk t acc sz) a
  | .int cls cons, acc, sz, h => by
    simp only [CTy.InitOk] at h
    obtain ⟨h1, h2, h3⟩ := initInt_ok h.1 h.2.1 h.2.2
    refine ⟨_, satAll_append.1 h1, fun junk hj v s hl => ?_⟩
    cases v <;> simp only [HasLayout] at hl
    refine ⟨_, rfl, ?_, trivial⟩
    simp only [meaning]; rw [if_pos ⟨h2, h3⟩]
  | .bool cons, acc, sz, h => by
    simp only [CTy.InitOk] at h
    refine ⟨_, satAll_append.1 (initBool_ok h.1 h.2), fun junk hj v s hl => ?_⟩
    cases v <;> simp only [HasLayout] at hl
    exact ⟨_, rfl, rfl, trivial⟩
  | .null, acc, sz, h => by
    simp only [CTy.InitOk] at h
    subst h
    refine ⟨.null, ⟨trivial, by simp [SatAll]⟩, fun junk hj v s hl => ?_⟩
    cases v <;> simp only [HasLayout] at hl
    exact ⟨_, rfl, rfl, trivial⟩
  | .enum items cons, acc, sz, h => by
    simp only [CTy.InitOk] at h
    obtain ⟨x, hx, hm, hs⟩ := initEnum_ok h.1 h.2
    refine ⟨_, satAll_append.1 hs, fun junk hj v s hl => ?_⟩
    cases v <;> simp only [HasLayout] at hl
    refine ⟨.enum x, by simp only [initT, hx]; rfl, ?_, trivial⟩
    simp only [meaning]; rw [if_pos hm]
  | .octets lo hi cons, acc, sz, h => by
    simp only [CTy.InitOk] at h
    rcases h with ⟨h1, ⟨h2, h3, h4⟩, h5⟩ | ⟨c, h1, h2, h3, h4, h5⟩
    · refine ⟨.octets (List.replicate (sz.getD (lo, hi)).1 0#8), satAll_append.1 (h5 _ (by simp)), fun junk hj v s hl => ?_⟩
      cases v <;> simp only [HasLayout] at hl
      rename_i n arr
      have hv := values_nil octetsLeaf_nil h1
      have heq : List.replicate (sz.getD (lo, hi)).2 0#8 ++ arr.drop (sz.getD (lo, hi)).2
          = List.replicate (sz.getD (lo, hi)).1 0#8 ++ (List.replicate ((sz.getD (lo, hi)).2 - (sz.getD (lo, hi)).1) 0#8
            ++ arr.drop (sz.getD (lo, hi)).2) := by
        rw [← List.append_assoc, List.replicate_append_replicate]
        congr 2; omega
      have hlen : (List.replicate (sz.getD (lo, hi)).1 0#8 ++ (List.replicate ((sz.getD (lo, hi)).2 - (sz.getD (lo, hi)).1) 0#8
            ++ arr.drop (sz.getD (lo, hi)).2)).length = hi := by
        rw [← heq]; simp; omega
      refine ⟨.octets (if lo = hi then n else (sz.getD (lo, hi)).1) (List.replicate (sz.getD (lo, hi)).1 0#8
        ++ (List.replicate ((sz.getD (lo, hi)).2 - (sz.getD (lo, hi)).1) 0#8 ++ arr.drop (sz.getD (lo, hi)).2)), ?_, ?_, hlen⟩
      · simp only [initT, hv]
        rw [bind_ok (memSet_ok (by omega) s), heq]; rfl
      · simp only [meaning]
        rw [if_pos hlen, counted_prefix (by simp; omega) hlen (fun h => by simpa using h4 h)
          (fun hne => by rw [if_neg hne]; simp)]; rfl
    · obtain ⟨hne, hall⟩ := acValues_octets c h2 h3
      obtain ⟨w, ws, hw⟩ := List.exists_cons_of_ne_nil hne
      have hsat := hall w (by rw [hw]; exact List.mem_cons_self ..)
      obtain ⟨hwl, hwf⟩ := h5 w hsat
      refine ⟨.octets w, ?_, fun junk hj v s hl => ?_⟩
      · refine satAll_append.1 ?_
        rw [h1]; simpa [SatAll] using hsat
      · cases v <;> simp only [HasLayout] at hl
        rename_i n arr
        have hv : (cons ++ acc).flatMap (acValues octetsLeafValues) = w :: ws := by
          rw [h1]; simpa using hw
        have hlen : (w ++ List.replicate (hi - w.length) 0#8).length = hi := by simp; omega
        refine ⟨.octets (if (sz.getD (lo, hi)).1 = (sz.getD (lo, hi)).2 then 0 else w.length)
          (w ++ List.replicate (hi - w.length) 0#8), ?_, ?_, hlen⟩
        · simp only [initT, hv]
          rw [bind_ok (literalArr_ok hwl s)]; rfl
        · simp only [meaning]
          rw [if_pos hlen, counted_prefix hwl hlen hwf (fun hne => by rw [if_neg fun h => hne (h4.1 h)])]; rfl
  | .bits lo hi cons, acc, sz, h => by
    simp only [CTy.InitOk] at h
    obtain ⟨h1, ⟨h2, h3, h4⟩, h5⟩ := h
    refine ⟨.bits (List.replicate (sz.getD (lo, hi)).1 false), satAll_append.1 (h5 _ (by simp)), fun junk hj v s hl => ?_⟩
    cases v <;> simp only [HasLayout] at hl
    rename_i n arr
    have hv := values_nil bitsLeaf_nil h1
    have hlen : (List.replicate (((sz.getD (lo, hi)).2 + 7) / 8) 0#8 ++ arr.drop (((sz.getD (lo, hi)).2 + 7) / 8)).length
        = (hi + 7) / 8 := by simp; omega
    refine ⟨.bits (if lo = hi then n else (sz.getD (lo, hi)).1)
      (List.replicate (((sz.getD (lo, hi)).2 + 7) / 8) 0#8 ++ arr.drop (((sz.getD (lo, hi)).2 + 7) / 8)), ?_, ?_, hlen⟩
    · simp only [initT, hv]
      rw [bind_ok (memSet_ok (by omega) s)]; rfl
    · simp only [meaning]
      rw [if_pos hlen, bytesBits_replicate_zero]
      have ht : ∀ r : List Bool, (List.replicate (8 * (((sz.getD (lo, hi)).2 + 7) / 8)) false ++ r).take (sz.getD (lo, hi)).1
          = List.replicate (sz.getD (lo, hi)).1 false := by
        intro r
        rw [List.take_append_of_le_length (by simp; omega), List.take_replicate]
        congr 1; omega
      by_cases hlh : lo = hi
      · rw [if_pos hlh]
        have := ht (bytesBits (arr.drop (((sz.getD (lo, hi)).2 + 7) / 8)))
        rw [h4 hlh] at this
        rw [this, h4 hlh]; rfl
      · rw [if_neg hlh, if_neg hlh]
        unfold counted
        rw [if_pos ⟨by omega, by omega⟩]
        have : (((sz.getD (lo, hi)).1 : Int)).toNat = (sz.getD (lo, hi)).1 := by omega
        rw [this, ht]; rfl
  | .str lo hi al cons, acc, sz, h => by
    simp only [CTy.InitOk] at h
    obtain ⟨h1, h2, h3⟩ := h
    obtain ⟨hc1, hc2, hc3⟩ := initChar_ok h2
    refine ⟨.str (List.replicate (sz.getD (lo, hi)).2 (initChar al)), satAll_append.1 (h3 _ hc1 hc2 hc3), fun junk hj v s hl => ?_⟩
    cases v <;> simp only [HasLayout] at hl
    rename_i arr
    have hset : (List.replicate (sz.getD (lo, hi)).2 (initChar al) ++ arr.drop (sz.getD (lo, hi)).2).set (sz.getD (lo, hi)).2 0#8
        = List.replicate (sz.getD (lo, hi)).2 (initChar al) ++ 0#8 :: arr.drop ((sz.getD (lo, hi)).2 + 1) := by
      rw [List.set_append_right _ _ (by simp), List.drop_eq_getElem_cons (i := (sz.getD (lo, hi)).2) (l := arr) (by omega)]
      simp only [List.length_replicate, Nat.sub_self, List.set_cons_zero]
    refine ⟨.str (List.replicate (sz.getD (lo, hi)).2 (initChar al) ++ 0#8 :: arr.drop ((sz.getD (lo, hi)).2 + 1)), ?_, ?_, ?_⟩
    · simp only [initT]
      rw [bind_ok (memSet_ok (by omega) s), if_pos (by simp; omega), hset]; rfl
    · simp only [meaning]
      rw [if_pos (by simp; omega), cString_ok]
      · rfl
      · intro c hc
        rw [List.eq_of_mem_replicate hc]
        refine ⟨fun h => ?_, by omega⟩
        rw [h] at hc2; exact absurd hc2 (by decide)
    · simp only [HasLayout]; simp; omega
  | .oid _ _, _, _, h => by simp only [CTy.InitOk] at h
  | .real cons, acc, sz, h => by
    simp only [CTy.InitOk] at h
    refine ⟨_, satAll_append.1 (initReal_ok h.1 h.2), fun junk hj v s hl => ?_⟩
    cases v <;> simp only [HasLayout] at hl
    exact ⟨_, rfl, rfl, trivial⟩
  | .seq fs cons, acc, sz, h => by
    simp only [CTy.InitOk] at h
    obtain ⟨h1, h2⟩ := h
    obtain ⟨hc, ha⟩ := List.append_eq_nil_iff.1 h1
    subst hc ha
    obtain ⟨l, hl, hm⟩ := initFields_ok fs h2
    refine ⟨.seq l, ⟨⟨⟨l, rfl, hl⟩, by simp⟩, by simp [SatAll]⟩, fun junk hj v s hlay => ?_⟩
    cases v <;> simp only [HasLayout] at hlay
    obtain ⟨w, hw, hmw, hLw⟩ := hm junk hj _ s hlay
    refine ⟨.seq w, ?_, ?_, hLw⟩
    · simp only [initT]; rw [bind_ok hw]; rfl
    · simp only [meaning, hmw]; rfl
  | .seqOf lo hi t cons, acc, sz, h => by
    simp only [CTy.InitOk] at h
    obtain ⟨⟨h2, h3, h4⟩, h5, h6⟩ := h
    obtain ⟨a, ⟨hsa, _⟩, hmk⟩ := initT_ok t [] none h6
    have hsat := satAll_append.1 (h5 (List.replicate (sz.getD (lo, hi)).1 a) (by simp))
    refine ⟨.seqOf (List.replicate (sz.getD (lo, hi)).1 a), ⟨⟨hsat.1, _, rfl, fun x hx => ?_⟩, hsat.2⟩, fun junk hj v s hl => ?_⟩
    · rw [List.eq_of_mem_replicate hx]; exact hsa
    · cases v <;> simp only [HasLayout] at hl
      rename_i n arr
      obtain ⟨m, r, hm, hml, hmq, hr⟩ := initElems_ok (f := initT junk t [] none) (P := HasLayout t)
        (Q := fun w => meaning t w = some a ∧ HasLayout t w) (fun v s hv => hmk junk hj v s hv) (sz.getD (lo, hi)).2 arr
        (by omega) hl.2 s
      have hlen : (m ++ r).length = hi := by rw [hr]; simp; omega
      have hsplit : m ++ r = m.take (sz.getD (lo, hi)).1 ++ (m.drop (sz.getD (lo, hi)).1 ++ r) := by
        rw [← List.append_assoc, List.take_append_drop]
      have htl : (m.take (sz.getD (lo, hi)).1).length = (sz.getD (lo, hi)).1 := by simp; omega
      refine ⟨.seqOf (if lo = hi then n else (sz.getD (lo, hi)).1) (m ++ r), ?_, ?_, ?_⟩
      · simp only [initT]
        rw [bind_ok hm]; rfl
      · simp only [meaning]
        rw [if_pos hlen]
        have := counted_prefix (lo := lo) (hi := hi) (n := if lo = hi then n else (sz.getD (lo, hi)).1)
          (l := m.take (sz.getD (lo, hi)).1) (r := m.drop (sz.getD (lo, hi)).1 ++ r) (by omega) (by rw [← hsplit]; exact hlen)
          (fun h => by rw [htl, h4 h]) (fun hne => by rw [if_neg hne, htl])
        rw [← hsplit] at this
        rw [this]
        have hc := mapM_const (g := meaning t) (a := a) (m.take (sz.getD (lo, hi)).1)
          (fun x hx => (hmq x (List.mem_of_mem_take hx)).1)
        simp only [Option.bind_some, hc, htl]; rfl
      · simp only [HasLayout]
        refine ⟨hlen, fun x hx => ?_⟩
        rcases List.mem_append.1 hx with hx | hx
        · exact (hmq x hx).2
        · rw [hr] at hx; exact hl.2 x (List.mem_of_mem_drop hx)
  | .choice alts cons, acc, sz, h => by
    simp only [CTy.InitOk] at h
    obtain ⟨h1, h2⟩ := h
    obtain ⟨hc, ha⟩ := List.append_eq_nil_iff.1 h1
    subst hc ha
    obtain ⟨a, hs, hm⟩ := initFirst_ok alts h2
    refine ⟨.choice 0 a, ⟨⟨by simp, 0, a, rfl, hs⟩, by simp [SatAll]⟩, fun junk hj v s hlay => ?_⟩
    cases v <;> simp only [HasLayout] at hlay
    rename_i k u
    obtain ⟨w, hw, hmw⟩ := hm junk hj k u s
    refine ⟨.choice 1 w, ?_, ?_, trivial⟩
    · simp only [initT]; exact hw
    · simp only [meaning]
      rw [if_pos (by decide)]
      show Option.map _ (meaningAlt alts 0 w) = _
      rw [hmw]; rfl
  | .ref t sz' cons, acc, sz, h => by
    simp only [CTy.InitOk] at h
    obtain ⟨a, ⟨h1, h2⟩, hm⟩ := initT_ok t (cons ++ acc) (sz <|> sz') h
    obtain ⟨h3, h4⟩ := satAll_append.1 h2
    refine ⟨a, ⟨⟨h1, h3⟩, h4⟩, fun junk hj v s hl => ?_⟩
    simp only [HasLayout] at hl
    simpa only [initT, meaning, HasLayout] using hm junk hj v s hl
theorem initFields_ok : ∀ (fs : CFields), fs.InitOk → ∃ l, fs.Sat l ∧
    ∀ junk, (∀ u, HasLayout u (junk u)) → ∀ m s, HasLayoutFields fs m →
      ∃ w, initFields junk fs m s = .ok (w, s) ∧ meaningFields fs w = some l ∧ HasLayoutFields fs w
  | .nil, _ => by
    refine ⟨[], trivial, fun junk hj m s hl => ?_⟩
    cases m <;> simp only [HasLayoutFields] at hl
    exact ⟨[], rfl, rfl, trivial⟩
  | .cons o t rest, h => by
    have put : ∀ (a : Option AV) (g : (CTy → CVal) → Bool → CVal → M (Bool × CVal)),
        (∀ x, a = some x → t.Sat x) →
        (∀ junk, (∀ u, HasLayout u (junk u)) → ∀ e v s, HasLayout t v → ∃ p : Bool × CVal, g junk e v s = .ok (p, s) ∧
          HasLayout t p.2 ∧ ∀ xs ws, meaningFields rest ws = some xs → meaningFields (.cons o t rest) (p :: ws) = some (a :: xs)) →
        (∀ junk e v vs, initFields junk (.cons o t rest) ((e, v) :: vs) = (do
          let x ← g junk e v
          let ws ← initFields junk rest vs
          pure (x :: ws))) →
        rest.InitOk →
        ∃ l, (CFields.cons o t rest).Sat l ∧ ∀ junk, (∀ u, HasLayout u (junk u)) → ∀ m s, HasLayoutFields (.cons o t rest) m →
          ∃ w, initFields junk (.cons o t rest) m s = .ok (w, s) ∧ meaningFields (.cons o t rest) w = some l ∧
            HasLayoutFields (.cons o t rest) w := by
      intro a g ha hg hi hr
      obtain ⟨l, hs, hm⟩ := initFields_ok rest hr
      refine ⟨a :: l, ?_, fun junk hj m s hl => ?_⟩
      · cases a with
        | none => exact hs
        | some x => exact ⟨ha x rfl, hs⟩
      · cases m with
        | nil => exact hl.elim
        | cons ev vs =>
          obtain ⟨e, v⟩ := ev
          simp only [HasLayoutFields] at hl
          obtain ⟨p, hp, hpl, hpm⟩ := hg junk hj e v s hl.1
          obtain ⟨ws, hws, hmw, hlw⟩ := hm junk hj vs s hl.2
          refine ⟨p :: ws, ?_, hpm _ _ hmw, ?_⟩
          · rw [hi, bind_ok hp, bind_ok hws]; rfl
          · obtain ⟨p1, p2⟩ := p; exact ⟨hpl, hlw⟩
    cases o with
    | mandatory =>
      simp only [CFields.InitOk] at h
      obtain ⟨a, ⟨hs, _⟩, hm⟩ := initT_ok t [] none h.1
      refine put (some a) (fun junk e v => do pure (e, ← initT junk t [] none v)) (fun x hx => by cases hx; exact hs)
        (fun junk hj e v s hl => ?_) (fun _ _ _ _ => by simp [initFields]) h.2
      obtain ⟨w, hw, hmw, hlw⟩ := hm junk hj v s hl
      refine ⟨(e, w), by rw [bind_ok hw]; rfl, hlw, fun xs ws hx => by simp [meaningFields, hmw, hx]⟩
    | optional =>
      simp only [CFields.InitOk] at h
      obtain ⟨a, ⟨hs, _⟩, hm⟩ := initT_ok t [] none h.1
      refine put (some a) (fun junk e v => do pure (true, ← initT junk t [] none v)) (fun x hx => by cases hx; exact hs)
        (fun junk hj e v s hl => ?_) (fun _ _ _ _ => by simp [initFields]) h.2
      obtain ⟨w, hw, hmw, hlw⟩ := hm junk hj v s hl
      refine ⟨(true, w), by rw [bind_ok hw]; rfl, hlw, fun xs ws hx => by simp [meaningFields, hmw, hx]⟩
    | present =>
      simp only [CFields.InitOk] at h
      obtain ⟨a, ⟨hs, _⟩, hm⟩ := initT_ok t [] none h.1
      refine put (some a) (fun junk e v => do pure (true, ← initT junk t [] none v)) (fun x hx => by cases hx; exact hs)
        (fun junk hj e v s hl => ?_) (fun _ _ _ _ => by simp [initFields]) h.2
      obtain ⟨w, hw, hmw, hlw⟩ := hm junk hj v s hl
      refine ⟨(true, w), by rw [bind_ok hw]; rfl, hlw, fun xs ws hx => by simp [meaningFields, hmw, hx]⟩
    | default d =>
      simp only [CFields.InitOk] at h
      refine put (some d) (fun junk e v => do pure (true, ← initByValue junk t none d v)) (fun x hx => by cases hx; exact h.2.1)
        (fun junk hj e v s hl => ?_) (fun _ _ _ _ => by simp [initFields]) h.2.2
      obtain ⟨w, hw, hmw, hlw⟩ := byValue_ok hj t none d v s h.1 hl
      refine ⟨(true, w), by rw [bind_ok hw]; rfl, hlw, fun xs ws hx => by simp [meaningFields, hmw, hx]⟩
    | absent =>
      simp only [CFields.InitOk] at h
      refine put none (fun junk e v => pure (false, v)) (fun x hx => by cases hx)
        (fun junk hj e v s hl => ?_) (fun _ _ _ _ => by simp [initFields]) h
      exact ⟨(false, v), rfl, hl, fun xs ws hx => by simp [meaningFields, hx]⟩
theorem initFirst_ok : ∀ (alts : CAlts), alts.InitOk → ∃ a, alts.Sat 0 a ∧
    ∀ junk, (∀ u, HasLayout u (junk u)) → ∀ k u s, ∃ w, initFirst junk alts k u s = .ok (.choice 1 w, s) ∧ meaningAlt alts 0 w = some a
  | .nil, h => h.elim
  | .cons t rest, h => by
    simp only [CAlts.InitOk] at h
    obtain ⟨a, ⟨hs, _⟩, hm⟩ := initT_ok t [] none h
    refine ⟨a, hs, fun junk hj k u s => ?_⟩
    obtain ⟨w, hw, hmw, _⟩ := hm junk hj (junk t) s (hj t)
    refine ⟨w, ?_, hmw⟩
    simp only [initFirst]
    rw [bind_ok hw]; rfl
end

end Asn1
