import Verif.Proof.Notation
/-!
# C96: helper lemmas
-/
namespace Asn1

/-! ## Types without references -/

theorem NTy.actual_eq : ∀ t : NTy, t.actual = t.stripped
  | .ref _ _ t _ => by rw [NTy.actual, NTy.stripped]; exact NTy.actual_eq t
  | .int _ => rfl
  | .real _ => rfl
  | .bool _ => rfl
  | .null _ => rfl
  | .enum _ _ => rfl
  | .octets _ => rfl
  | .bits _ => rfl
  | .str _ => rfl
  | .oid _ => rfl
  | .seq _ _ => rfl
  | .seqOf _ _ => rfl
  | .choice _ _ => rfl

theorem NTy.stripped_idem : ∀ t : NTy, t.stripped.stripped = t.stripped
  | .ref _ _ t _ => by rw [NTy.stripped]; exact NTy.stripped_idem t
  | .int _ => rfl
  | .real _ => rfl
  | .bool _ => rfl
  | .null _ => rfl
  | .enum _ _ => rfl
  | .octets _ => rfl
  | .bits _ => rfl
  | .str _ => rfl
  | .oid _ => rfl
  | .seq _ _ => rfl
  | .seqOf _ _ => rfl
  | .choice _ _ => rfl

theorem NTy.denotes_stripped : ∀ (t : NTy) (v : VN) (a : AV), t.Denotes v a ↔ t.stripped.Denotes v a
  | .ref _ _ t _, v, a => by rw [NTy.stripped, NTy.Denotes]; exact NTy.denotes_stripped t v a
  | .int _, _, _ => Iff.rfl
  | .real _, _, _ => Iff.rfl
  | .bool _, _, _ => Iff.rfl
  | .null _, _, _ => Iff.rfl
  | .enum _ _, _, _ => Iff.rfl
  | .octets _, _, _ => Iff.rfl
  | .bits _, _, _ => Iff.rfl
  | .str _, _, _ => Iff.rfl
  | .oid _, _, _ => Iff.rfl
  | .seq _ _, _, _ => Iff.rfl
  | .seqOf _ _, _, _ => Iff.rfl
  | .choice _ _, _, _ => Iff.rfl

theorem NTy.mapVal_stripped : ∀ (t : NTy) (v : VN), mapVal t v = mapVal t.stripped v
  | .ref _ _ t _, v => by rw [NTy.stripped, mapVal]; exact NTy.mapVal_stripped t v
  | .int _, _ => rfl
  | .real _, _ => rfl
  | .bool _, _ => rfl
  | .null _, _ => rfl
  | .enum _ _, _ => rfl
  | .octets _, _ => rfl
  | .bits _, _ => rfl
  | .str _, _ => rfl
  | .oid _, _ => rfl
  | .seq _ _, _ => rfl
  | .seqOf _ _, _ => rfl
  | .choice _ _, _ => rfl

theorem NTy.distinct_stripped : ∀ (t : NTy), t.Distinct ↔ t.stripped.Distinct
  | .ref _ _ t _ => by rw [NTy.stripped, NTy.Distinct]; exact NTy.distinct_stripped t
  | .int _ => Iff.rfl
  | .real _ => Iff.rfl
  | .bool _ => Iff.rfl
  | .null _ => Iff.rfl
  | .enum _ _ => Iff.rfl
  | .octets _ => Iff.rfl
  | .bits _ => Iff.rfl
  | .str _ => Iff.rfl
  | .oid _ => Iff.rfl
  | .seq _ _ => Iff.rfl
  | .seqOf _ _ => Iff.rfl
  | .choice _ _ => Iff.rfl

theorem denotes_unique {t : NTy} (hd : t.Distinct) {v : VN} {a b : AV} (ha : t.Denotes v a) (hb : t.Denotes v b) : a = b := by
  have h1 := complete t v a ha hd
  rw [complete t v b hb hd] at h1
  exact (Option.some.inj h1).symm

/-! ## Parts -/

theorem NFields.index_typeOf : ∀ {fs : NFields} {nm : String} {i : Nat} {u : NTy}, fs.index nm = some i → fs.typeOf nm = some u →
    ∃ o, fs.toList[i]? = some (nm, o, u)
  | .nil, _, _, _, h, _ => by simp [NFields.index] at h
  | .cons n o t rest, nm, i, u, h1, h2 => by
    rw [NFields.index] at h1
    rw [NFields.typeOf] at h2
    by_cases e : n = nm
    · rw [if_pos (by simpa using e)] at h1 h2
      cases h1
      cases h2
      exact ⟨o, by simp [NFields.toList, e]⟩
    · rw [if_neg (by simpa using e)] at h1 h2
      obtain ⟨j, hj, ej⟩ := Option.map_eq_some_iff.1 h1
      obtain ⟨o', h⟩ := NFields.index_typeOf hj h2
      exact ⟨o', by rw [← ej, NFields.toList]; simpa using h⟩

theorem NAlts.index_typeOf : ∀ {fs : NAlts} {nm : String} {i : Nat} {u : NTy}, fs.index nm = some i → fs.typeOf nm = some u →
    fs.toList[i]? = some (nm, u)
  | .nil, _, _, _, h, _ => by simp [NAlts.index] at h
  | .cons n t rest, nm, i, u, h1, h2 => by
    rw [NAlts.index] at h1
    rw [NAlts.typeOf] at h2
    by_cases e : n = nm
    · rw [if_pos (by simpa using e)] at h1 h2
      cases h1
      cases h2
      simp [NAlts.toList, e]
    · rw [if_neg (by simpa using e)] at h1 h2
      obtain ⟨j, hj, ej⟩ := Option.map_eq_some_iff.1 h1
      have h := NAlts.index_typeOf hj h2
      rw [← ej, NAlts.toList]
      simpa using h

theorem nodup_index {α : Type} {l : List (String × α)} (hn : (l.map (·.1)).Nodup) {i j : Nat} {nm : String} {x y : α}
    (hx : l[i]? = some (nm, x)) (hy : l[j]? = some (nm, y)) : i = j ∧ x = y := by
  have h1 : (l.map (·.1))[i]? = some nm := by rw [List.getElem?_map, hx]; rfl
  have h2 : (l.map (·.1))[j]? = some nm := by rw [List.getElem?_map, hy]; rfl
  have hi := (List.getElem?_eq_some_iff.1 h1).1
  have e : i = j := (List.getElem?_inj hi hn).1 (by rw [h1, h2])
  refine ⟨e, ?_⟩
  subst e
  rw [hx] at hy
  cases hy
  rfl

theorem NTy.isPart_unique {t : NTy} (hd : t.Distinct) {nm : String} {i j : Nat} {u w : NTy} (h : t.IsPart nm i u) (h' : t.IsPart nm j w) :
    i = j ∧ u = w := by
  have hd' := (NTy.distinct_stripped t).1 hd
  unfold NTy.IsPart at h h'
  cases hs : t.stripped <;> rw [hs] at h h' hd' <;> try (exact h.elim)
  · obtain ⟨o, h⟩ := h
    obtain ⟨o', h'⟩ := h'
    rw [NTy.Distinct] at hd'
    have := nodup_index hd'.1 h h'
    exact ⟨this.1, (Prod.mk.inj this.2).2⟩
  · rw [NTy.Distinct] at hd'
    exact nodup_index hd'.1 h h'

theorem NFields.distinct_get : ∀ {fs : NFields}, fs.Distinct → ∀ {i : Nat} {nm : String} {o : NOpt} {u : NTy}, fs.toList[i]? = some (nm, o, u) →
    u.Distinct
  | .nil, _, i, nm, o, u, h => by simp [NFields.toList] at h
  | .cons n o' t rest, hd, i, nm, o, u, h => by
    rw [NFields.Distinct] at hd
    rw [NFields.toList] at h
    cases i with
    | zero => simp at h; rw [← h.2.2]; exact hd.1
    | succ i => exact NFields.distinct_get hd.2 (by simpa using h)

theorem NAlts.distinct_get : ∀ {fs : NAlts}, fs.Distinct → ∀ {i : Nat} {nm : String} {u : NTy}, fs.toList[i]? = some (nm, u) →
    u.Distinct
  | .nil, _, i, nm, u, h => by simp [NAlts.toList] at h
  | .cons n t rest, hd, i, nm, u, h => by
    rw [NAlts.Distinct] at hd
    rw [NAlts.toList] at h
    cases i with
    | zero => simp at h; rw [← h.2]; exact hd.1
    | succ i => exact NAlts.distinct_get hd.2 (by simpa using h)

theorem NTy.isPart_distinct {t : NTy} (hd : t.Distinct) {nm : String} {i : Nat} {u : NTy} (h : t.IsPart nm i u) : u.Distinct := by
  have hd' := (NTy.distinct_stripped t).1 hd
  unfold NTy.IsPart at h
  cases hs : t.stripped <;> rw [hs] at h hd' <;> try (exact h.elim)
  · obtain ⟨o, h⟩ := h
    rw [NTy.Distinct] at hd'
    exact NFields.distinct_get hd'.2 h
  · rw [NTy.Distinct] at hd'
    exact NAlts.distinct_get hd'.2 h

theorem NTy.isElement_distinct {t : NTy} (hd : t.Distinct) {u : NTy} (h : t.IsElement u) : u.Distinct := by
  have hd' := (NTy.distinct_stripped t).1 hd
  unfold NTy.IsElement at h
  cases hs : t.stripped <;> rw [hs] at h hd' <;> try (exact h.elim)
  subst h
  exact hd'

theorem part_isPart {t : NTy} {nm : String} {p : Nat × NTy} (h : t.stripped.part nm = some p) : t.IsPart nm p.1 p.2 := by
  unfold NTy.part at h
  unfold NTy.IsPart
  cases hs : t.stripped <;> rw [hs] at h <;> simp only at h ⊢ <;> try (simp at h)
  · rename_i fs cons
    cases h1 : fs.index nm with
    | none => rw [h1] at h; simp at h
    | some i =>
      cases h2 : fs.typeOf nm with
      | none => rw [h1, h2] at h; simp at h
      | some u =>
        rw [h1, h2] at h
        simp at h
        subst h
        exact NFields.index_typeOf h1 h2
  · rename_i fs cons
    cases h1 : fs.index nm with
    | none => rw [h1] at h; simp at h
    | some i =>
      cases h2 : fs.typeOf nm with
      | none => rw [h1, h2] at h; simp at h
      | some u =>
        rw [h1, h2] at h
        simp at h
        subst h
        exact NAlts.index_typeOf h1 h2

/-! ## Numbers -/

theorem AV.equals_of_not_real {a b : AV} (h : ∀ d, b ≠ .real d) : a.Equals b ↔ a = b := by
  cases b <;> cases a <;> simp [AV.Equals] at h ⊢

theorem AV.equals_real {a : AV} {d : Dbl} : a.Equals (.real d) ↔ ∃ x, a = .real x ∧ dblEq x d = true := by
  cases a <;> simp [AV.Equals]

theorem intOf_int {t : NTy} {cons : List XC} (hs : t.stripped = .int cons) {v : VN} {x : Int} : intOf t v = some x ↔ v.RefersTo (.int x) := by
  unfold intOf
  rw [NTy.mapVal_stripped, hs, mapVal]
  cases hb : v.base with
  | none =>
    simp only
    refine ⟨fun h => by simp at h, fun h => ?_⟩
    rw [(VN.base_iff _ _).2 h] at hb
    simp at hb
  | some w =>
    have hw := (VN.base_iff v w).1 hb
    cases w <;> simp only
    case int y =>
      refine ⟨fun h => by cases h; exact hw, fun h => ?_⟩
      rw [(VN.base_iff _ _).2 h] at hb
      cases hb
      rfl
    all_goals
      refine ⟨fun h => by simp at h, fun h => ?_⟩
      rw [(VN.base_iff _ _).2 h] at hb
      simp at hb

theorem dblOf_real {t : NTy} {cons : List XC} (hs : t.stripped = .real cons) {v : VN} {d : Dbl} : dblOf t v = some d ↔ t.Denotes v (.real d) := by
  unfold dblOf
  rw [NTy.mapVal_stripped, NTy.denotes_stripped, hs]
  constructor
  · intro h
    rw [mapVal] at h
    cases hb : v.base with
    | none => rw [hb] at h; simp at h
    | some w =>
      rw [hb] at h
      have hw := (VN.base_iff v w).1 hb
      cases w <;> simp at h
      · exact .inr ⟨_, hw, by rw [h]⟩
      · exact .inl ⟨_, hw, by rw [h]⟩
  · intro h
    rw [complete _ _ _ h (by simp [NTy.Distinct])]

theorem denotes_int {t : NTy} {cons : List XC} (hs : t.stripped = .int cons) {v : VN} {a : AV} :
    t.Denotes v a ↔ ∃ x, v.RefersTo (.int x) ∧ a = .int x := by
  rw [NTy.denotes_stripped, hs, NTy.Denotes]

theorem denotes_real {t : NTy} {cons : List XC} (hs : t.stripped = .real cons) {v : VN} {a : AV} (h : t.Denotes v a) : ∃ d, a = .real d := by
  rw [NTy.denotes_stripped, hs, NTy.Denotes] at h
  rcases h with ⟨d, _, e⟩ | ⟨d, _, e⟩
  · exact ⟨_, e⟩
  · exact ⟨_, e⟩

theorem refersTo_unique {v w u : VN} (h : v.RefersTo w) (h' : v.RefersTo u) : w = u := by
  have := (VN.base_iff _ _).2 h
  rw [(VN.base_iff _ _).2 h'] at this
  exact (Option.some.inj this).symm

/-! ## Bounds -/

theorem lower_int {t : NTy} {cons : List XC} (hs : t.stripped = .int cons) {v : VN} {x : Int} (h : v.RefersTo (.int x)) (i : Bool) (a : AV) :
    (∃ b, t.Denotes v b ∧ b.UpTo i a) ↔ ∃ n, a = .int n ∧ (if i then x ≤ n else x < n) := by
  constructor
  · rintro ⟨b, hb, hu⟩
    obtain ⟨y, hy, e⟩ := (denotes_int hs).1 hb
    cases refersTo_unique h hy
    subst e
    cases a <;> simp only [AV.UpTo] at hu
    exact ⟨_, rfl, hu⟩
  · rintro ⟨n, e, hn⟩
    subst e
    exact ⟨.int x, (denotes_int hs).2 ⟨x, h, rfl⟩, hn⟩

theorem upper_int {t : NTy} {cons : List XC} (hs : t.stripped = .int cons) {v : VN} {x : Int} (h : v.RefersTo (.int x)) (i : Bool) (a : AV) :
    (∃ b, t.Denotes v b ∧ a.UpTo i b) ↔ ∃ n, a = .int n ∧ (if i then n ≤ x else n < x) := by
  constructor
  · rintro ⟨b, hb, hu⟩
    obtain ⟨y, hy, e⟩ := (denotes_int hs).1 hb
    cases refersTo_unique h hy
    subst e
    cases a <;> simp only [AV.UpTo] at hu
    exact ⟨_, rfl, hu⟩
  · rintro ⟨n, e, hn⟩
    subst e
    exact ⟨.int x, (denotes_int hs).2 ⟨x, h, rfl⟩, hn⟩

theorem lower_real {t : NTy} {cons : List XC} (hs : t.stripped = .real cons) {v : VN} {x : Dbl} (h : t.Denotes v (.real x)) (i : Bool) (a : AV) :
    (∃ b, t.Denotes v b ∧ b.UpTo i a) ↔ ∃ n, a = .real n ∧ (if i then dblLe x n = true else dblLt x n = true) := by
  have hd : t.Distinct := (NTy.distinct_stripped t).2 (by rw [hs]; simp [NTy.Distinct])
  constructor
  · rintro ⟨b, hb, hu⟩
    have := denotes_unique hd hb h
    subst this
    cases a <;> simp only [AV.UpTo] at hu
    exact ⟨_, rfl, hu⟩
  · rintro ⟨n, e, hn⟩
    subst e
    exact ⟨.real x, h, hn⟩

theorem upper_real {t : NTy} {cons : List XC} (hs : t.stripped = .real cons) {v : VN} {x : Dbl} (h : t.Denotes v (.real x)) (i : Bool) (a : AV) :
    (∃ b, t.Denotes v b ∧ a.UpTo i b) ↔ ∃ n, a = .real n ∧ (if i then dblLe n x = true else dblLt n x = true) := by
  have hd : t.Distinct := (NTy.distinct_stripped t).2 (by rw [hs]; simp [NTy.Distinct])
  constructor
  · rintro ⟨b, hb, hu⟩
    have := denotes_unique hd hb h
    subst this
    cases a <;> simp only [AV.UpTo] at hu
    exact ⟨_, rfl, hu⟩
  · rintro ⟨n, e, hn⟩
    subst e
    exact ⟨.real x, h, hn⟩

/-! ## SIZE and FROM -/

theorem bind2_some {α β γ : Type} {x : Option α} {y : Option β} {f : α → β → γ} {r : γ}
    (h : (do let a ← x; let b ← y; some (f a b)) = some r) : ∃ a b, x = some a ∧ y = some b ∧ r = f a b := by
  cases x with
  | none => simp at h
  | some a =>
    cases y with
    | none => simp at h
    | some b => simp at h; exact ⟨a, b, rfl, rfl, h.symm⟩

theorem mapRange_sat {get : VN → Option Int} (hg : ∀ v x, get v = some x → v.RefersTo (.int x)) (n : Int) :
    ∀ (c : XC) (k : Con RLeaf), mapRange get c = some k → (k.Sat RLeaf.Sat n ↔ c.Sat (.int []) (.int n))
  | .single v, k, h => by
    rw [mapRange] at h
    obtain ⟨x, hx, e⟩ := Option.map_eq_some_iff.1 h
    have hr := hg v x hx
    subst e
    rw [Con.Sat, RLeaf.Sat, XC.Sat]
    refine ⟨fun e => ⟨.int x, ⟨x, hr, rfl⟩, by rw [e]; simp [AV.Equals]⟩, ?_⟩
    rintro ⟨b, ⟨y, hy, e⟩, hq⟩
    cases refersTo_unique hr hy
    subst e
    simpa [AV.Equals] using hq
  | .range v1 v2 i j, k, h => by
    rw [mapRange] at h
    obtain ⟨x, y, hx, hy, e⟩ := bind2_some h
    subst e
    rw [Con.Sat, RLeaf.Sat, XC.Sat, lower_int (cons := []) rfl (hg _ _ hx), upper_int (cons := []) rfl (hg _ _ hy)]
    simp
  | .valMax v1 i, k, h => by
    rw [mapRange] at h
    obtain ⟨x, hx, e⟩ := Option.map_eq_some_iff.1 h
    subst e
    rw [Con.Sat, RLeaf.Sat, XC.Sat, lower_int (cons := []) rfl (hg _ _ hx)]
    simp
  | .minVal v2 j, k, h => by
    rw [mapRange] at h
    obtain ⟨x, hx, e⟩ := Option.map_eq_some_iff.1 h
    subst e
    rw [Con.Sat, RLeaf.Sat, XC.Sat, upper_int (cons := []) rfl (hg _ _ hx)]
    simp
  | .union c d, k, h => by
    rw [mapRange] at h
    obtain ⟨x, y, hx, hy, e⟩ := bind2_some h
    subst e
    rw [Con.Sat, XC.Sat, mapRange_sat hg n c x hx, mapRange_sat hg n d y hy]
  | .inter c d, k, h => by
    rw [mapRange] at h
    obtain ⟨x, y, hx, hy, e⟩ := bind2_some h
    subst e
    rw [Con.Sat, XC.Sat, mapRange_sat hg n c x hx, mapRange_sat hg n d y hy]
  | .allExcept c, k, h => by
    rw [mapRange] at h
    obtain ⟨x, hx, e⟩ := Option.map_eq_some_iff.1 h
    subst e
    rw [Con.Sat, XC.Sat, mapRange_sat hg n c x hx]
  | .except c d, k, h => by
    rw [mapRange] at h
    obtain ⟨x, y, hx, hy, e⟩ := bind2_some h
    subst e
    rw [Con.Sat, XC.Sat, mapRange_sat hg n c x hx, mapRange_sat hg n d y hy]
  | .root c, k, h => by
    rw [mapRange] at h
    obtain ⟨x, hx, e⟩ := Option.map_eq_some_iff.1 h
    subst e
    rw [Con.Sat, XC.Sat, mapRange_sat hg n c x hx]
  | .root2 c d, k, h => by
    rw [mapRange] at h
    obtain ⟨x, y, hx, hy, e⟩ := bind2_some h
    subst e
    rw [Con.Sat, XC.Sat, mapRange_sat hg n c x hx, mapRange_sat hg n d y hy]
  | .size c, k, h => by simp [mapRange] at h
  | .alphabet c, k, h => by simp [mapRange] at h
  | .component c, k, h => by simp [mapRange] at h
  | .components ncs, k, h => by simp [mapRange] at h

theorem posIntOf_refers {v : VN} {x : Int} (h : posIntOf v = some x) : v.RefersTo (.int x) := by
  unfold posIntOf at h
  cases hb : v.base with
  | none => rw [hb] at h; simp at h
  | some w =>
    rw [hb] at h
    cases w <;> simp at h
    rw [← h.2]
    exact (VN.base_iff _ _).1 hb

theorem charOf_refers {v : VN} {n : Nat} (h : charOf v = some n) : ∃ x : Byte, v.RefersTo (.str [x]) ∧ n = x.toNat := by
  unfold charOf at h
  cases hb : v.base with
  | none => rw [hb] at h; simp at h
  | some w =>
    rw [hb] at h
    cases w <;> try (simp at h; done)
    rename_i l
    cases l with
    | nil => simp at h
    | cons x l =>
      cases l with
      | nil => simp at h; exact ⟨x, (VN.base_iff _ _).1 hb, h.symm⟩
      | cons y l => simp at h

theorem strOf_refers {v : VN} {l : List Byte} (h : strOf v = some l) : v.RefersTo (.str l) := by
  unfold strOf at h
  cases hb : v.base with
  | none => rw [hb] at h; simp at h
  | some w =>
    rw [hb] at h
    cases w <;> simp at h
    rw [← h]
    exact (VN.base_iff _ _).1 hb

theorem refers_char {v : VN} {x : Byte} (h : v.RefersTo (.str [x])) (P : Byte → Prop) : (∃ y, v.RefersTo (.str [y]) ∧ P y) ↔ P x := by
  refine ⟨?_, fun hp => ⟨x, h, hp⟩⟩
  rintro ⟨y, hy, hp⟩
  have := refersTo_unique h hy
  simp at this
  rw [this]
  exact hp

theorem mapAlpha_sat (ch : Byte) : ∀ (c : XC) (k : Con AlphaLeaf), mapAlpha c = some k → (k.Sat AlphaLeaf.Sat ch.toNat ↔ c.CharSat ch)
  | .single v, k, h => by
    rw [mapAlpha] at h
    obtain ⟨l, hl, e⟩ := Option.map_eq_some_iff.1 h
    have hr := strOf_refers hl
    subst e
    rw [Con.Sat, AlphaLeaf.Sat, XC.CharSat, List.mem_map]
    constructor
    · rintro ⟨c, hc, e⟩
      exact ⟨l, hr, by rw [← BitVec.eq_of_toNat_eq e]; exact hc⟩
    · rintro ⟨m, hm, hc⟩
      cases refersTo_unique hr hm
      exact ⟨ch, hc, rfl⟩
  | .range v1 v2 i j, k, h => by
    rw [mapAlpha] at h
    obtain ⟨x, y, hx, hy, e⟩ := bind2_some h
    subst e
    obtain ⟨x, hx', rfl⟩ := charOf_refers hx
    obtain ⟨y, hy', rfl⟩ := charOf_refers hy
    rw [Con.Sat, AlphaLeaf.Sat, XC.CharSat, refers_char hx' (fun x => if i = true then x.toNat ≤ ch.toNat else x.toNat < ch.toNat),
      refers_char hy' (fun x => if j = true then ch.toNat ≤ x.toNat else ch.toNat < x.toNat)]
  | .valMax v1 i, k, h => by
    rw [mapAlpha] at h
    obtain ⟨x, hx, e⟩ := Option.map_eq_some_iff.1 h
    subst e
    obtain ⟨x, hx', rfl⟩ := charOf_refers hx
    rw [Con.Sat, AlphaLeaf.Sat, XC.CharSat, refers_char hx' (fun x => if i = true then x.toNat ≤ ch.toNat else x.toNat < ch.toNat)]
  | .minVal v2 j, k, h => by
    rw [mapAlpha] at h
    obtain ⟨y, hy, e⟩ := Option.map_eq_some_iff.1 h
    subst e
    obtain ⟨y, hy', rfl⟩ := charOf_refers hy
    rw [Con.Sat, AlphaLeaf.Sat, XC.CharSat, refers_char hy' (fun x => if j = true then ch.toNat ≤ x.toNat else ch.toNat < x.toNat)]
  | .union c d, k, h => by
    rw [mapAlpha] at h
    obtain ⟨x, y, hx, hy, e⟩ := bind2_some h
    subst e
    rw [Con.Sat, XC.CharSat, mapAlpha_sat ch c x hx, mapAlpha_sat ch d y hy]
  | .inter c d, k, h => by
    rw [mapAlpha] at h
    obtain ⟨x, y, hx, hy, e⟩ := bind2_some h
    subst e
    rw [Con.Sat, XC.CharSat, mapAlpha_sat ch c x hx, mapAlpha_sat ch d y hy]
  | .allExcept c, k, h => by
    rw [mapAlpha] at h
    obtain ⟨x, hx, e⟩ := Option.map_eq_some_iff.1 h
    subst e
    rw [Con.Sat, XC.CharSat, mapAlpha_sat ch c x hx]
  | .except c d, k, h => by
    rw [mapAlpha] at h
    obtain ⟨x, y, hx, hy, e⟩ := bind2_some h
    subst e
    rw [Con.Sat, XC.CharSat, mapAlpha_sat ch c x hx, mapAlpha_sat ch d y hy]
  | .root c, k, h => by
    rw [mapAlpha] at h
    obtain ⟨x, hx, e⟩ := Option.map_eq_some_iff.1 h
    subst e
    rw [Con.Sat, XC.CharSat, mapAlpha_sat ch c x hx]
  | .root2 c d, k, h => by
    rw [mapAlpha] at h
    obtain ⟨x, y, hx, hy, e⟩ := bind2_some h
    subst e
    rw [Con.Sat, XC.CharSat, mapAlpha_sat ch c x hx, mapAlpha_sat ch d y hy]
  | .size c, k, h => by simp [mapAlpha] at h
  | .alphabet c, k, h => by simp [mapAlpha] at h
  | .component c, k, h => by simp [mapAlpha] at h
  | .components ncs, k, h => by simp [mapAlpha] at h

/-! ## The translation -/

theorem singleCon_sat {t : NTy} {v : VN} {ac : AC} (h : singleCon t v = some ac) {b : AV} (hb : mapVal t v = some b) (a : AV) :
    ac.Sat a ↔ a.Equals b := by
  unfold singleCon at h
  rw [hb] at h
  have hb' := hb
  rw [NTy.mapVal_stripped] at hb'
  rw [NTy.actual_eq] at h
  cases hs : t.stripped <;> rw [hs] at h hb'
  case int => cases b <;> simp at h; subst h; simp [AC.Sat, RLeaf.Sat, AV.equals_of_not_real]
  case real => cases b <;> simp at h; subst h; simp only [AC.Sat, RealLeaf.Sat, AV.equals_real]
  case bool => cases b <;> simp at h; subst h; simp [AC.Sat, AV.equals_of_not_real]
  case null => cases b <;> simp at h
  case enum => cases b <;> simp at h; subst h; simp [AC.Sat, AV.equals_of_not_real]
  case octets => cases b <;> simp at h; subst h; simp [AC.Sat, AV.equals_of_not_real]
  case bits => cases b <;> simp at h; subst h; simp [AC.Sat, AV.equals_of_not_real]
  case str => cases b <;> simp at h; subst h; simp [AC.Sat, AV.equals_of_not_real]
  case oid => cases b <;> simp at h; subst h; simp [AC.Sat, AV.equals_of_not_real]
  case ref => simp at h
  case seq =>
    simp only [Option.some.injEq] at h; subst h
    rw [AC.Sat, AV.equals_of_not_real]
    intro d e
    subst e
    rw [mapVal] at hb'
    cases hbv : v.base <;> rw [hbv] at hb' <;> try (simp at hb')
    rename_i w
    cases w <;> simp at hb'
  case seqOf =>
    simp only [Option.some.injEq] at h; subst h
    rw [AC.Sat, AV.equals_of_not_real]
    intro d e
    subst e
    rw [mapVal] at hb'
    cases hbv : v.base <;> rw [hbv] at hb' <;> try (simp at hb')
    rename_i w
    cases w <;> simp at hb'
  case choice =>
    simp only [Option.some.injEq] at h; subst h
    rw [AC.Sat, AV.equals_of_not_real]
    intro d e
    subst e
    rw [mapVal] at hb'
    cases hbv : v.base <;> rw [hbv] at hb' <;> try (simp at hb')
    rename_i w
    cases w <;> simp at hb'

mutual
theorem mapCon_sat : ∀ (c : XC) (t : NTy) (ac : AC) (a : AV), mapCon t c = some ac → t.Distinct → c.Valued t → (ac.Sat a ↔ c.Sat t a)
  | .single v, t, ac, a, h, hd, hv => by
    rw [mapCon] at h
    obtain ⟨b, hb⟩ := hv
    have hm := complete t v b hb hd
    rw [singleCon_sat h hm, XC.Sat]
    refine ⟨fun e => ⟨b, hb, e⟩, ?_⟩
    rintro ⟨b', hb', e⟩
    rw [denotes_unique hd hb hb']
    exact e
  | .range v1 v2 i j, t, ac, a, h, hd, _ => by
    rw [mapCon, NTy.actual_eq] at h
    cases hs : t.stripped <;> rw [hs] at h <;> try (simp at h; done)
    · obtain ⟨x, y, hx, hy, e⟩ := bind2_some h
      subst e
      rw [XC.Sat, lower_int hs ((intOf_int hs).1 hx), upper_int hs ((intOf_int hs).1 hy), AC.Sat]
      simp only [RLeaf.Sat]
      constructor
      · rintro ⟨n, e, h1, h2⟩; exact ⟨⟨n, e, h1⟩, n, e, h2⟩
      · rintro ⟨⟨n, e, h1⟩, m, e', h2⟩
        subst e
        cases e'
        exact ⟨n, rfl, h1, h2⟩
    · obtain ⟨x, y, hx, hy, e⟩ := bind2_some h
      subst e
      rw [XC.Sat, lower_real hs ((dblOf_real hs).1 hx), upper_real hs ((dblOf_real hs).1 hy), AC.Sat]
      simp only [RealLeaf.Sat]
      constructor
      · rintro ⟨n, e, h1, h2⟩; exact ⟨⟨n, e, h1⟩, n, e, h2⟩
      · rintro ⟨⟨n, e, h1⟩, m, e', h2⟩
        subst e
        cases e'
        exact ⟨n, rfl, h1, h2⟩
  | .valMax v1 i, t, ac, a, h, hd, _ => by
    rw [mapCon, NTy.actual_eq] at h
    cases hs : t.stripped <;> rw [hs] at h <;> try (simp at h; done)
    · cases hx : intOf t v1 <;> rw [hx] at h <;> simp at h
      subst h
      rw [XC.Sat, lower_int hs ((intOf_int hs).1 hx), AC.Sat]
      simp only [RLeaf.Sat]
    · cases hx : dblOf t v1 <;> rw [hx] at h <;> simp at h
      subst h
      rw [XC.Sat, lower_real hs ((dblOf_real hs).1 hx), AC.Sat]
      simp only [RealLeaf.Sat]
  | .minVal v2 j, t, ac, a, h, hd, _ => by
    rw [mapCon, NTy.actual_eq] at h
    cases hs : t.stripped <;> rw [hs] at h <;> try (simp at h; done)
    · cases hx : intOf t v2 <;> rw [hx] at h <;> simp at h
      subst h
      rw [XC.Sat, upper_int hs ((intOf_int hs).1 hx), AC.Sat]
      simp only [RLeaf.Sat]
    · cases hx : dblOf t v2 <;> rw [hx] at h <;> simp at h
      subst h
      rw [XC.Sat, upper_real hs ((dblOf_real hs).1 hx), AC.Sat]
      simp only [RealLeaf.Sat]
  | .size c, t, ac, a, h, hd, _ => by
    rw [mapCon] at h
    split at h
    · obtain ⟨k, hk, e⟩ := Option.map_eq_some_iff.1 h
      subst e
      rw [AC.Sat, XC.Sat]
      refine exists_congr fun n => and_congr_right fun _ => ?_
      exact mapRange_sat (fun v x => posIntOf_refers) n c k hk
    · simp at h
  | .alphabet c, t, ac, a, h, hd, _ => by
    rw [mapCon] at h
    split at h
    · obtain ⟨k, hk, e⟩ := Option.map_eq_some_iff.1 h
      subst e
      rw [AC.Sat, XC.Sat]
      refine exists_congr fun n => and_congr_right fun _ => ?_
      exact forall₂_congr fun ch _ => mapAlpha_sat ch c k hk
    · simp at h
  | .union c d, t, ac, a, h, hd, hv => by
    rw [mapCon] at h
    obtain ⟨x, y, hx, hy, e⟩ := bind2_some h
    subst e
    rw [AC.Sat, XC.Sat, mapCon_sat c t x a hx hd hv.1, mapCon_sat d t y a hy hd hv.2]
  | .inter c d, t, ac, a, h, hd, hv => by
    rw [mapCon] at h
    obtain ⟨x, y, hx, hy, e⟩ := bind2_some h
    subst e
    rw [AC.Sat, XC.Sat, mapCon_sat c t x a hx hd hv.1, mapCon_sat d t y a hy hd hv.2]
  | .allExcept c, t, ac, a, h, hd, hv => by
    rw [mapCon] at h
    obtain ⟨x, hx, e⟩ := Option.map_eq_some_iff.1 h
    subst e
    rw [AC.Sat, XC.Sat, mapCon_sat c t x a hx hd hv]
  | .except c d, t, ac, a, h, hd, hv => by
    rw [mapCon] at h
    obtain ⟨x, y, hx, hy, e⟩ := bind2_some h
    subst e
    rw [AC.Sat, XC.Sat, mapCon_sat c t x a hx hd hv.1, mapCon_sat d t y a hy hd hv.2]
  | .root c, t, ac, a, h, hd, hv => by
    rw [mapCon] at h
    obtain ⟨x, hx, e⟩ := Option.map_eq_some_iff.1 h
    subst e
    rw [AC.Sat, XC.Sat, mapCon_sat c t x a hx hd hv]
  | .root2 c d, t, ac, a, h, hd, hv => by
    rw [mapCon] at h
    obtain ⟨x, y, hx, hy, e⟩ := bind2_some h
    subst e
    rw [AC.Sat, XC.Sat, mapCon_sat c t x a hx hd hv.1, mapCon_sat d t y a hy hd hv.2]
  | .component c, t, ac, a, h, hd, hv => by
    rw [mapCon, NTy.actual_eq] at h
    cases hs : t.stripped <;> rw [hs] at h <;> try (simp at h; done)
    rename_i e cons
    have he : t.IsElement e := by unfold NTy.IsElement; rw [hs]
    obtain ⟨x, hx, e'⟩ := Option.map_eq_some_iff.1 h
    subst e'
    have ih := fun y => mapCon_sat c e x y hx (NTy.isElement_distinct hd he) (hv e he)
    rw [AC.Sat, XC.Sat]
    constructor
    · rintro ⟨l, e, h⟩
      exact ⟨_, l, he, e, fun y hy => (ih y).1 (h y hy)⟩
    · rintro ⟨e', l, he', e, h⟩
      unfold NTy.IsElement at he'
      rw [hs] at he'
      simp only at he'
      subst he'
      exact ⟨l, e, fun y hy => (ih y).2 (h y hy)⟩
  | .components ncs, t, ac, a, h, hd, hv => by
    rw [mapCon, NTy.actual_eq] at h
    have : ∃ r, mapCons t.stripped ncs = some r ∧ ac = .components r := by
      cases hs : t.stripped <;> rw [hs] at h <;> try (simp at h; done)
      · obtain ⟨r, hr, e⟩ := Option.map_eq_some_iff.1 h
        exact ⟨r, hr, e.symm⟩
      · obtain ⟨r, hr, e⟩ := Option.map_eq_some_iff.1 h
        exact ⟨r, hr, e.symm⟩
    obtain ⟨r, hr, e⟩ := this
    subst e
    rw [AC.Sat, XC.Sat]
    exact mapCons_sat ncs t r a hr hd hv
theorem mapCons_sat : ∀ (ncs : XCs) (t : NTy) (r : NCs) (a : AV), mapCons t.stripped ncs = some r → t.Distinct → ncs.Valued t →
    (r.Sat a ↔ ncs.Sat t a)
  | .nil, t, r, a, h, hd, _ => by
    rw [mapCons] at h
    cases h
    rw [NCs.Sat, XCs.Sat]
  | .bare nm m rest, t, r, a, h, hd, hv => by
    rw [mapCons] at h
    obtain ⟨p, y, hp, hy, e⟩ := bind2_some h
    subst e
    have hq := part_isPart hp
    rw [NCs.Sat, XCs.Sat, mapCons_sat rest t y a hy hd hv]
    refine and_congr_left fun _ => ⟨fun h => ⟨_, _, hq, h⟩, ?_⟩
    rintro ⟨i, u, h1, h2⟩
    rw [(NTy.isPart_unique hd hq h1).1]
    exact h2
  | .cons nm m c rest, t, r, a, h, hd, hv => by
    rw [mapCons] at h
    cases hp : t.stripped.part nm with
    | none => rw [hp] at h; simp at h
    | some p =>
      rw [hp] at h
      simp only [Option.bind_eq_bind, Option.bind_some] at h
      obtain ⟨x, y, hx, hy, e⟩ := bind2_some h
      subst e
      have hq := part_isPart hp
      rw [XCs.Valued] at hv
      have ih := fun z => mapCon_sat c p.2 x z hx (NTy.isPart_distinct hd hq) (hv.1 _ _ hq)
      rw [NCs.Sat, XCs.Sat, mapCons_sat rest t y a hy hd hv.2]
      constructor
      · rintro ⟨h1, h2, h3⟩
        exact ⟨⟨_, _, hq, h1, fun z hz => (ih z).1 (h2 z hz)⟩, h3⟩
      · rintro ⟨⟨i, u, h0, h1, h2⟩, h3⟩
        obtain ⟨ei, eu⟩ := NTy.isPart_unique hd h0 hq
        subst ei eu
        exact ⟨h1, fun z hz => (ih z).2 (h2 z hz), h3⟩
end

end Asn1
