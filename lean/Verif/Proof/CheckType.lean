import Verif.Model.CheckType
import Verif.Spec.CheckType
import Verif.Proof.NotationCheck
import Verif.Proof.NotationCon
/-!
# Which types the front end accepts: proofs
-/
namespace Asn1

theorem Plainly.left {l m : List VN} (h : Plainly (l ++ m)) : Plainly l := fun v hv => h v (List.mem_append_left _ hv)
theorem Plainly.right {l m : List VN} (h : Plainly (l ++ m)) : Plainly m := fun v hv => h v (List.mem_append_right _ hv)

theorem value_denotes {t : NTy} {v : VN} (ho : v.OnceEach) (h : checkValueType t v = true) : ∃ b, t.Denotes v b := by
  unfold checkValueType at h
  obtain ⟨a, _, ha⟩ := accepted t none v (by simpa using h) ho
  exact ⟨a, ha⟩

theorem value_iff {t : NTy} {v : VN} (hd : t.Distinct) (hv : v.OnceEach ∧ v.BuiltinGovernors) :
    checkValueType t v = true ↔ ∃ b, t.Denotes v b := by
  refine ⟨value_denotes hv.1, fun ⟨b, hb⟩ => ?_⟩
  unfold checkValueType
  rw [matched t none v b hb hd hv.2]
  rfl

theorem bind2_isSome {α β γ : Type} {x : Option α} {y : Option β} {f : α → β → γ} :
    (do let a ← x; let b ← y; some (f a b)).isSome = true ↔ x.isSome = true ∧ y.isSome = true := by
  cases x <;> cases y <;> simp

theorem map_isSome {α β : Type} {x : Option α} {f : α → β} : (x.map f).isSome = true ↔ x.isSome = true := by
  cases x <;> simp

theorem and4 {a b c d A B C D : Prop} (h1 : a ∧ c ↔ A ∧ C) (h2 : b ∧ d ↔ B ∧ D) : (a ∧ b) ∧ c ∧ d ↔ (A ∧ B) ∧ C ∧ D := by
  constructor
  · rintro ⟨⟨x, y⟩, z, w⟩
    have h3 := h1.1 ⟨x, z⟩
    have h4 := h2.1 ⟨y, w⟩
    exact ⟨⟨h3.1, h4.1⟩, h3.2, h4.2⟩
  · rintro ⟨⟨x, y⟩, z, w⟩
    have h3 := h1.2 ⟨x, z⟩
    have h4 := h2.2 ⟨y, w⟩
    exact ⟨⟨h3.1, h4.1⟩, h3.2, h4.2⟩

/-! ## Inside SIZE -/

theorem posInt_isSome {v : VN} : (posIntOf v).isSome = true ↔ ∃ x, v.RefersTo (.int x) ∧ 0 ≤ x ∧ x < 2 ^ 32 := by
  constructor
  · intro h
    obtain ⟨x, hx⟩ := Option.isSome_iff_exists.1 h
    refine ⟨x, posIntOf_refers hx, ?_⟩
    unfold posIntOf at hx
    rw [(VN.base_iff _ _).2 (posIntOf_refers hx)] at hx
    simp only at hx
    by_cases hb : 0 ≤ x ∧ x < 2 ^ 32
    · exact hb
    · rw [if_neg hb] at hx; cases hx
  · rintro ⟨x, hx, hb⟩
    unfold posIntOf
    rw [(VN.base_iff _ _).2 hx]
    simp only
    rw [if_pos hb]
    rfl

theorem intValue {v : VN} : (∃ b, (NTy.int []).Denotes v b) ↔ ∃ x, v.RefersTo (.int x) := by
  constructor
  · rintro ⟨b, x, hx, _⟩; exact ⟨x, hx⟩
  · rintro ⟨x, hx⟩; exact ⟨_, x, hx, rfl⟩

/-- One number. -/
def Num (v : VN) : Prop := ∀ x, v.RefersTo (.int x) → 0 ≤ x ∧ x < 2 ^ 32

theorem posInt_iff {v : VN} : (∃ b, (NTy.int []).Denotes v b) ∧ (posIntOf v).isSome = true ↔ (∃ b, (NTy.int []).Denotes v b) ∧ Num v := by
  rw [intValue, posInt_isSome]
  constructor
  · rintro ⟨⟨x, hx⟩, y, hy, hb⟩
    refine ⟨⟨x, hx⟩, fun z hz => ?_⟩
    have := refersTo_unique hy hz
    cases this
    exact hb
  · rintro ⟨⟨x, hx⟩, h⟩
    exact ⟨⟨x, hx⟩, x, hx, h x hx⟩

theorem numbers_append {P : Int → Prop} {c d : XC} {e : XC} (he : e.vals = c.vals ++ d.vals) : e.Numbers P ↔ c.Numbers P ∧ d.Numbers P := by
  unfold XC.Numbers
  rw [he]
  constructor
  · intro h
    exact ⟨fun v hv => h v (List.mem_append_left _ hv), fun v hv => h v (List.mem_append_right _ hv)⟩
  · rintro ⟨h1, h2⟩ v hv
    rcases List.mem_append.1 hv with h | h
    · exact h1 v h
    · exact h2 v h

/-- SIZE numbers of 32 bits. -/
abbrev XC.Small (c : XC) : Prop := c.Numbers fun x => 0 ≤ x ∧ x < 2 ^ 32

theorem canRange_int : (NTy.int []).canRange = true := rfl
theorem takesRange_int : (NTy.int []).TakesRange := .inl ⟨_, rfl⟩
theorem distinct_int : (NTy.int []).Distinct := by simp [NTy.Distinct]

theorem size_iff : ∀ c : XC, Plainly c.vals →
    (conValid c (.int []) = true ∧ (mapRange posIntOf c).isSome = true ↔ c.Legal (.int []) ∧ c.Small)
  | .single v, hp => by
    rw [conValid, mapRange, XC.Legal, map_isSome, value_iff distinct_int (hp v (by simp [XC.vals])), posInt_iff]
    simp [XC.Numbers, XC.vals, Num]
  | .range v1 v2 i j, hp => by
    rw [conValid, mapRange, XC.Legal, canRange_int, Bool.true_and, Bool.and_eq_true, value_iff distinct_int (hp v1 (by simp [XC.vals])),
      value_iff distinct_int (hp v2 (by simp [XC.vals])), bind2_isSome, and4 posInt_iff posInt_iff]
    simp [XC.Numbers, XC.vals, Num, takesRange_int]
  | .valMax v i, hp => by
    rw [conValid, mapRange, XC.Legal, map_isSome, canRange_int, Bool.true_and, value_iff distinct_int (hp v (by simp [XC.vals])), posInt_iff]
    simp [XC.Numbers, XC.vals, Num, takesRange_int]
  | .minVal v i, hp => by
    rw [conValid, mapRange, XC.Legal, map_isSome, canRange_int, Bool.true_and, value_iff distinct_int (hp v (by simp [XC.vals])), posInt_iff]
    simp [XC.Numbers, XC.vals, Num, takesRange_int]
  | .union c d, hp => by
    rw [XC.vals] at hp
    rw [conValid, mapRange, XC.Legal, Bool.and_eq_true, bind2_isSome, and4 (size_iff c hp.left) (size_iff d hp.right)]
    unfold XC.Small
    rw [numbers_append (e := c.union d) (c := c) (d := d) (by rw [XC.vals])]
  | .inter c d, hp => by
    rw [XC.vals] at hp
    rw [conValid, mapRange, XC.Legal, Bool.and_eq_true, bind2_isSome, and4 (size_iff c hp.left) (size_iff d hp.right)]
    unfold XC.Small
    rw [numbers_append (e := c.inter d) (c := c) (d := d) (by rw [XC.vals])]
  | .except c d, hp => by
    rw [XC.vals] at hp
    rw [conValid, mapRange, XC.Legal, Bool.and_eq_true, bind2_isSome, and4 (size_iff c hp.left) (size_iff d hp.right)]
    unfold XC.Small
    rw [numbers_append (e := c.except d) (c := c) (d := d) (by rw [XC.vals])]
  | .root2 c d, hp => by
    rw [XC.vals] at hp
    rw [conValid, mapRange, XC.Legal, Bool.and_eq_true, bind2_isSome, and4 (size_iff c hp.left) (size_iff d hp.right)]
    unfold XC.Small
    rw [numbers_append (e := c.root2 d) (c := c) (d := d) (by rw [XC.vals])]
  | .allExcept c, hp => by
    rw [XC.vals] at hp
    rw [conValid, mapRange, XC.Legal, map_isSome, size_iff c hp]
    simp only [XC.Small, XC.Numbers, XC.vals]
  | .root c, hp => by
    rw [XC.vals] at hp
    rw [conValid, mapRange, XC.Legal, map_isSome, size_iff c hp]
    simp only [XC.Small, XC.Numbers, XC.vals]
  | .size c, _ => by simp [conValid, XC.Legal, NTy.canSize, NTy.actual, NTy.TakesSize, NTy.stripped]
  | .alphabet c, _ => by simp [conValid, XC.Legal, NTy.canFrom, NTy.actual, NTy.TakesFrom, NTy.stripped]
  | .component c, _ => by simp [conValid, XC.Legal, NTy.actual, NTy.IsElement, NTy.stripped]
  | .components c, _ => by simp [conValid, XC.Legal, NTy.canComponents, NTy.actual, NTy.TakesComponents, NTy.stripped]

/-! ## Inside FROM -/

theorem strValue {t : NTy} {cs : List XC} (hs : t.stripped = .str cs) {v : VN} : (∃ b, t.Denotes v b) ↔ ∃ l, v.RefersTo (.str l) := by
  constructor
  · rintro ⟨b, hb⟩
    rw [NTy.denotes_stripped, hs] at hb
    obtain ⟨l, hl, _⟩ := hb
    exact ⟨l, hl⟩
  · rintro ⟨l, hl⟩
    refine ⟨.str l, ?_⟩
    rw [NTy.denotes_stripped, hs]
    exact ⟨l, hl, rfl⟩

theorem strOf_isSome {v : VN} : (strOf v).isSome = true ↔ ∃ l, v.RefersTo (.str l) := by
  constructor
  · intro h
    obtain ⟨l, hl⟩ := Option.isSome_iff_exists.1 h
    exact ⟨l, strOf_refers hl⟩
  · rintro ⟨l, hl⟩
    unfold strOf
    rw [(VN.base_iff _ _).2 hl]
    rfl

theorem charOf_isSome {v : VN} : (charOf v).isSome = true ↔ ∃ x, v.RefersTo (.str [x]) := by
  constructor
  · intro h
    obtain ⟨l, hl⟩ := Option.isSome_iff_exists.1 h
    obtain ⟨x, hx, _⟩ := charOf_refers hl
    exact ⟨x, hx⟩
  · rintro ⟨l, hl⟩
    unfold charOf
    rw [(VN.base_iff _ _).2 hl]
    rfl

theorem char_iff {v : VN} : (∃ l, v.RefersTo (.str l)) ∧ (charOf v).isSome = true ↔ ∃ x, v.RefersTo (.str [x]) := by
  rw [charOf_isSome]
  exact ⟨fun h => h.2, fun ⟨x, hx⟩ => ⟨⟨_, hx⟩, x, hx⟩⟩

theorem from_iff {t : NTy} {cs : List XC} (hs : t.stripped = .str cs) : ∀ c : XC, Plainly c.vals →
    (conValid c t = true ∧ (mapAlpha c).isSome = true ↔ c.FromLegal) := by
  have hd : t.Distinct := (NTy.distinct_stripped t).2 (by rw [hs]; simp [NTy.Distinct])
  have hr : t.canRange = true := by unfold NTy.canRange; rw [NTy.actual_eq, hs]
  intro c hp
  induction c using XC.rec (motive_2 := fun _ => True) with
  | single v =>
    rw [conValid, mapAlpha, XC.FromLegal, map_isSome, value_iff hd (hp v (by simp [XC.vals])), strValue hs, strOf_isSome, and_self]
  | range v1 v2 i j =>
    rw [conValid, mapAlpha, XC.FromLegal, bind2_isSome, hr, Bool.true_and, Bool.and_eq_true, value_iff hd (hp v1 (by simp [XC.vals])),
      value_iff hd (hp v2 (by simp [XC.vals])), strValue hs, strValue hs, and_and_and_comm, char_iff, char_iff]
  | valMax v i =>
    rw [conValid, mapAlpha, XC.FromLegal, map_isSome, hr, Bool.true_and, value_iff hd (hp v (by simp [XC.vals])), strValue hs, char_iff]
  | minVal v i =>
    rw [conValid, mapAlpha, XC.FromLegal, map_isSome, hr, Bool.true_and, value_iff hd (hp v (by simp [XC.vals])), strValue hs, char_iff]
  | union c d h1 h2 =>
    rw [XC.vals] at hp
    rw [conValid, mapAlpha, XC.FromLegal, bind2_isSome, Bool.and_eq_true, and_and_and_comm, h1 hp.left, h2 hp.right]
  | inter c d h1 h2 =>
    rw [XC.vals] at hp
    rw [conValid, mapAlpha, XC.FromLegal, bind2_isSome, Bool.and_eq_true, and_and_and_comm, h1 hp.left, h2 hp.right]
  | except c d h1 h2 =>
    rw [XC.vals] at hp
    rw [conValid, mapAlpha, XC.FromLegal, bind2_isSome, Bool.and_eq_true, and_and_and_comm, h1 hp.left, h2 hp.right]
  | root2 c d h1 h2 =>
    rw [XC.vals] at hp
    rw [conValid, mapAlpha, XC.FromLegal, bind2_isSome, Bool.and_eq_true, and_and_and_comm, h1 hp.left, h2 hp.right]
  | allExcept c h =>
    rw [XC.vals] at hp
    rw [conValid, mapAlpha, XC.FromLegal, map_isSome, h hp]
  | root c h =>
    rw [XC.vals] at hp
    rw [conValid, mapAlpha, XC.FromLegal, map_isSome, h hp]
  | size c h => simp [mapAlpha, XC.FromLegal]
  | alphabet c h => simp [mapAlpha, XC.FromLegal]
  | component c h => simp [mapAlpha, XC.FromLegal]
  | components c h => simp [mapAlpha, XC.FromLegal]
  | nil => trivial
  | bare => trivial
  | cons => trivial

/-! ## Single values and ranges -/

theorem NTy.stripped_ne_ref : ∀ (t : NTy) (md tas : String) (u : NTy) (cs : List XC), t.stripped ≠ .ref md tas u cs
  | .ref _ _ t _, md, tas, u, cs => by rw [NTy.stripped]; exact NTy.stripped_ne_ref t md tas u cs
  | .int _, _, _, _, _ => by simp [NTy.stripped]
  | .real _, _, _, _, _ => by simp [NTy.stripped]
  | .bool _, _, _, _, _ => by simp [NTy.stripped]
  | .null _, _, _, _, _ => by simp [NTy.stripped]
  | .enum _ _, _, _, _, _ => by simp [NTy.stripped]
  | .octets _, _, _, _, _ => by simp [NTy.stripped]
  | .bits _, _, _, _, _ => by simp [NTy.stripped]
  | .str _, _, _, _, _ => by simp [NTy.stripped]
  | .oid _, _, _, _, _ => by simp [NTy.stripped]
  | .seq _ _, _, _, _, _ => by simp [NTy.stripped]
  | .seqOf _ _, _, _, _, _ => by simp [NTy.stripped]
  | .choice _ _, _, _, _, _ => by simp [NTy.stripped]

theorem single_isSome {t : NTy} (hd : t.Distinct) {v : VN} {b : AV} (hb : t.Denotes v b) :
    (singleCon t v).isSome = true ↔ ∀ cs, t.stripped ≠ .null cs := by
  unfold singleCon
  rw [complete t v b hb hd, NTy.actual_eq]
  rw [NTy.denotes_stripped] at hb
  cases hs : t.stripped with
  | ref => exact absurd hs (NTy.stripped_ne_ref _ _ _ _ _)
  | null cs => simp
  | int cs => rw [hs] at hb; obtain ⟨x, _, rfl⟩ := hb; simp
  | real cs =>
    rw [hs] at hb
    rcases hb with ⟨x, _, rfl⟩ | ⟨x, _, rfl⟩ <;> simp
  | bool cs => rw [hs] at hb; obtain ⟨x, _, rfl⟩ := hb; simp
  | enum items cs => rw [hs] at hb; obtain ⟨x, _, rfl⟩ := hb; simp
  | octets cs =>
    rw [hs] at hb
    rcases hb with ⟨x, _, rfl⟩ | ⟨w, x, _, _, rfl⟩ <;> simp
  | bits cs =>
    rw [hs] at hb
    rcases hb with ⟨x, _, rfl⟩ | ⟨x, _, rfl⟩ <;> simp
  | str cs => rw [hs] at hb; obtain ⟨x, _, rfl⟩ := hb; simp
  | oid cs => rw [hs] at hb; obtain ⟨x, _, rfl⟩ := hb; simp
  | seq fs cs => simp
  | seqOf e cs => simp
  | choice alts cs => simp

theorem int_isSome {t : NTy} {cs : List XC} (hs : t.stripped = .int cs) {v : VN} : (intOf t v).isSome = true ↔ ∃ b, t.Denotes v b := by
  constructor
  · intro h
    obtain ⟨x, hx⟩ := Option.isSome_iff_exists.1 h
    exact ⟨.int x, (denotes_int hs).2 ⟨x, (intOf_int hs).1 hx, rfl⟩⟩
  · rintro ⟨b, hb⟩
    obtain ⟨x, hx, _⟩ := (denotes_int hs).1 hb
    rw [(intOf_int hs).2 hx]
    rfl

theorem dbl_isSome {t : NTy} {cs : List XC} (hs : t.stripped = .real cs) {v : VN} : (dblOf t v).isSome = true ↔ ∃ b, t.Denotes v b := by
  constructor
  · intro h
    obtain ⟨x, hx⟩ := Option.isSome_iff_exists.1 h
    exact ⟨.real x, (dblOf_real hs).1 hx⟩
  · rintro ⟨b, hb⟩
    obtain ⟨d, rfl⟩ := denotes_real hs hb
    rw [(dblOf_real hs).2 hb]
    rfl

/-! ## The parts of a type -/

theorem NFields.child_of : ∀ {fs : NFields} {nm : String} {p : NOpt × NTy}, fs.child nm = some p →
    ∃ i, fs.index nm = some i ∧ fs.typeOf nm = some p.2 ∧ fs.toList[i]? = some (nm, p.1, p.2)
  | .nil, nm, p, h => by simp [NFields.child] at h
  | .cons n o t rest, nm, p, h => by
    rw [NFields.child] at h
    rw [NFields.index, NFields.typeOf]
    by_cases hn : n = nm
    · subst hn
      simp at h
      subst h
      exact ⟨0, by simp, by simp, by simp [NFields.toList]⟩
    · have hb : (n == nm) = false := by simpa using hn
      rw [hb] at h ⊢
      simp only [Bool.false_eq_true, if_false] at h ⊢
      obtain ⟨i, h1, h2, h3⟩ := NFields.child_of h
      refine ⟨i + 1, by rw [h1]; rfl, h2, ?_⟩
      rw [NFields.toList, List.getElem?_cons_succ]
      exact h3

theorem NFields.child_mem : ∀ {fs : NFields} {nm : String} {o : NOpt} {u : NTy}, (nm, o, u) ∈ fs.toList → (fs.child nm).isSome = true
  | .nil, nm, o, u, h => by simp [NFields.toList] at h
  | .cons n o' t rest, nm, o, u, h => by
    rw [NFields.child]
    by_cases hn : n = nm
    · subst hn
      simp
    · have hb : (n == nm) = false := by simpa using hn
      rw [hb]
      simp only [Bool.false_eq_true, if_false]
      rw [NFields.toList] at h
      rcases List.mem_cons.1 h with h | h
      · cases h; exact absurd rfl hn
      · exact NFields.child_mem h

theorem NAlts.typeOf_of : ∀ {fs : NAlts} {nm : String} {u : NTy}, fs.typeOf nm = some u → ∃ i, fs.index nm = some i
  | .nil, nm, u, h => by simp [NAlts.typeOf] at h
  | .cons n t rest, nm, u, h => by
    rw [NAlts.typeOf] at h
    rw [NAlts.index]
    by_cases hn : n = nm
    · subst hn
      exact ⟨0, by simp⟩
    · have hb : (n == nm) = false := by simpa using hn
      rw [hb] at h ⊢
      simp only [Bool.false_eq_true, if_false] at h ⊢
      obtain ⟨i, hi⟩ := NAlts.typeOf_of h
      exact ⟨i + 1, by rw [hi]; rfl⟩

theorem NAlts.typeOf_mem : ∀ {fs : NAlts} {nm : String} {u : NTy}, (nm, u) ∈ fs.toList → (fs.typeOf nm).isSome = true
  | .nil, nm, u, h => by simp [NAlts.toList] at h
  | .cons n t rest, nm, u, h => by
    rw [NAlts.typeOf]
    by_cases hn : n = nm
    · subst hn
      simp
    · have hb : (n == nm) = false := by simpa using hn
      rw [hb]
      simp only [Bool.false_eq_true, if_false]
      rw [NAlts.toList] at h
      rcases List.mem_cons.1 h with h | h
      · cases h; exact absurd rfl hn
      · exact NAlts.typeOf_mem h

theorem child_part {t : NTy} {nm : String} {o : Option NOpt} {u : NTy} (h : t.child nm = some (o, u)) :
    ∃ i, t.stripped.part nm = some (i, u) := by
  unfold NTy.child at h
  unfold NTy.part
  rw [NTy.actual_eq] at h
  cases hs : t.stripped with
  | seq fs cs =>
    rw [hs] at h
    obtain ⟨p, hp, he⟩ := Option.map_eq_some_iff.1 h
    cases he
    obtain ⟨i, h1, h2, _⟩ := NFields.child_of hp
    exact ⟨i, by simp [h1, h2]⟩
  | choice alts cs =>
    rw [hs] at h
    obtain ⟨p, hp, he⟩ := Option.map_eq_some_iff.1 h
    cases he
    obtain ⟨i, h1⟩ := NAlts.typeOf_of hp
    exact ⟨i, by simp [h1, hp]⟩
  | _ => rw [hs] at h; simp at h

theorem isPart_child {t : NTy} {nm : String} {i : Nat} {u : NTy} (hd : t.Distinct) (h : t.IsPart nm i u) : ∃ o, t.child nm = some (o, u) := by
  have hsome : (t.child nm).isSome = true := by
    unfold NTy.IsPart at h
    unfold NTy.child
    rw [NTy.actual_eq]
    cases hs : t.stripped <;> rw [hs] at h <;> try (exact h.elim)
    · obtain ⟨o, ho⟩ := h
      rw [map_isSome]
      exact NFields.child_mem (List.mem_of_getElem? ho)
    · rw [map_isSome]
      exact NAlts.typeOf_mem (List.mem_of_getElem? h)
  obtain ⟨⟨o, w⟩, hw⟩ := Option.isSome_iff_exists.1 hsome
  obtain ⟨j, hj⟩ := child_part hw
  obtain ⟨_, rfl⟩ := NTy.isPart_unique hd h (part_isPart hj)
  exact ⟨o, hw⟩

theorem mark_iff {t : NTy} {nm : String} {o : Option NOpt} {u : NTy} (hd : t.Distinct) (h : t.child nm = some (o, u)) (m : Mark) :
    markAccepted o m = true ↔ t.TakesMark nm m := by
  have hd' := (NTy.distinct_stripped t).1 hd
  unfold NTy.child at h
  unfold NTy.TakesMark
  rw [NTy.actual_eq] at h
  cases hs : t.stripped with
  | seq fs cs =>
    rw [hs] at h hd'
    obtain ⟨p, hp, he⟩ := Option.map_eq_some_iff.1 h
    cases he
    obtain ⟨i, _, _, h3⟩ := NFields.child_of hp
    rw [NTy.Distinct] at hd'
    have hu : ∀ o' u', (nm, o', u') ∈ fs.toList → o' = p.1 := by
      intro o' u' hm
      have := nodup_fst_unique hd'.1 hm (List.mem_of_getElem? h3)
      cases this
      rfl
    simp only
    constructor
    · intro hm o' u' ho
      rw [hu o' u' ho]
      cases hq : p.1 <;> cases m <;> simp_all [markAccepted]
    · intro hm
      have := hm p.1 p.2 (List.mem_of_getElem? h3)
      cases hq : p.1 <;> cases m <;> simp_all [markAccepted]
  | choice alts cs =>
    rw [hs] at h
    obtain ⟨p, hp, he⟩ := Option.map_eq_some_iff.1 h
    cases he
    cases m <;> simp [markAccepted]
  | _ => rw [hs] at h; simp at h

theorem listed_names : ∀ ncs : XCs, ncs.listed = ncs.names
  | .nil => rfl
  | .bare _ _ rest => by rw [XCs.listed, XCs.names, listed_names rest]
  | .cons _ _ _ rest => by rw [XCs.listed, XCs.names, listed_names rest]

theorem canComponents_iff {t : NTy} : t.canComponents = true ↔ t.TakesComponents := by
  unfold NTy.canComponents NTy.TakesComponents
  rw [NTy.actual_eq]
  cases t.stripped <;> simp

theorem canSize_iff {t : NTy} : t.canSize = true ↔ t.TakesSize := by
  unfold NTy.canSize NTy.TakesSize
  rw [NTy.actual_eq]
  cases t.stripped <;> simp

theorem canFrom_iff {t : NTy} : t.canFrom = true ↔ t.TakesFrom := by
  unfold NTy.canFrom NTy.TakesFrom
  rw [NTy.actual_eq]
  cases t.stripped <;> simp

theorem sizeable_iff {t : NTy} : t.actual.sizeable = true ↔ t.TakesSize := by
  unfold NTy.TakesSize
  rw [NTy.actual_eq]
  cases t.stripped <;> simp [NTy.sizeable]

theorem small_iff {c : XC} : c.Small ↔ c.Numbers (0 ≤ ·) ∧ c.Numbers (· < 2 ^ 32) := by
  unfold XC.Small XC.Numbers
  constructor
  · intro h
    exact ⟨fun v hv x hx => (h v hv x hx).1, fun v hv x hx => (h v hv x hx).2⟩
  · rintro ⟨h1, h2⟩ v hv x hx
    exact ⟨h1 v hv x hx, h2 v hv x hx⟩

/-! ## Constraints -/

theorem range_iff {t : NTy} {a b : VN} {i j : Bool} (hd : t.Distinct) (ha : a.OnceEach ∧ a.BuiltinGovernors) (hb : b.OnceEach ∧ b.BuiltinGovernors) :
    (conValid (.range a b i j) t = true ∧ (mapCon t (.range a b i j)).isSome = true ↔ (XC.range a b i j).Legal t) := by
  rw [conValid, mapCon, XC.Legal, Bool.and_eq_true, Bool.and_eq_true, value_iff hd ha, value_iff hd hb]
  unfold NTy.canRange NTy.TakesRange
  rw [NTy.actual_eq]
  cases hs : t.stripped with
  | int cs =>
    simp only [bind2_isSome, int_isSome hs]
    simp
  | real cs =>
    simp only [bind2_isSome, dbl_isSome hs]
    simp
  | _ => simp

theorem below_iff {t : NTy} {a : VN} {i : Bool} (hd : t.Distinct) (ha : a.OnceEach ∧ a.BuiltinGovernors) :
    (conValid (.valMax a i) t = true ∧ (mapCon t (.valMax a i)).isSome = true ↔ (XC.valMax a i).Legal t) := by
  rw [conValid, mapCon, XC.Legal, Bool.and_eq_true, value_iff hd ha]
  unfold NTy.canRange NTy.TakesRange
  rw [NTy.actual_eq]
  cases hs : t.stripped with
  | int cs =>
    have := int_isSome hs (v := a)
    cases h : intOf t a <;> simp_all
  | real cs =>
    have := dbl_isSome hs (v := a)
    cases h : dblOf t a <;> simp_all
  | _ => simp

theorem above_iff {t : NTy} {a : VN} {i : Bool} (hd : t.Distinct) (ha : a.OnceEach ∧ a.BuiltinGovernors) :
    (conValid (.minVal a i) t = true ∧ (mapCon t (.minVal a i)).isSome = true ↔ (XC.minVal a i).Legal t) := by
  rw [conValid, mapCon, XC.Legal, Bool.and_eq_true, value_iff hd ha]
  unfold NTy.canRange NTy.TakesRange
  rw [NTy.actual_eq]
  cases hs : t.stripped with
  | int cs =>
    have := int_isSome hs (v := a)
    cases h : intOf t a <;> simp_all
  | real cs =>
    have := dbl_isSome hs (v := a)
    cases h : dblOf t a <;> simp_all
  | _ => simp

mutual
theorem constraint_iff : ∀ (c : XC) (t : NTy), t.Distinct → Plainly c.vals →
    (conValid c t = true ∧ (mapCon t c).isSome = true ↔ c.Legal t ∧ c.Known t)
  | .single v, t, hd, hp => by
    rw [conValid, mapCon, XC.Legal, XC.Known, value_iff hd (hp v (by simp [XC.vals]))]
    constructor
    · rintro ⟨⟨b, hb⟩, h⟩
      exact ⟨⟨b, hb⟩, (single_isSome hd hb).1 h⟩
    · rintro ⟨⟨b, hb⟩, h⟩
      exact ⟨⟨b, hb⟩, (single_isSome hd hb).2 h⟩
  | .range a b i j, t, hd, hp => by
    rw [range_iff hd (hp a (by simp [XC.vals])) (hp b (by simp [XC.vals]))]
    simp [XC.Known]
  | .valMax a i, t, hd, hp => by
    rw [below_iff hd (hp a (by simp [XC.vals]))]
    simp [XC.Known]
  | .minVal a i, t, hd, hp => by
    rw [above_iff hd (hp a (by simp [XC.vals]))]
    simp [XC.Known]
  | .size c, t, hd, hp => by
    rw [XC.vals] at hp
    rw [conValid, mapCon, XC.Legal, XC.Known, Bool.and_eq_true, canSize_iff]
    by_cases hs : t.TakesSize
    · rw [if_pos (sizeable_iff.2 hs), map_isSome, and_assoc, size_iff c hp, small_iff]
      simp [and_assoc]
    · simp [hs]
  | .alphabet c, t, hd, hp => by
    rw [XC.vals] at hp
    rw [conValid, mapCon, XC.Legal, XC.Known, Bool.and_eq_true, canFrom_iff, NTy.actual_eq]
    by_cases hs : t.TakesFrom
    · obtain ⟨cs, hs'⟩ := hs
      have hs : t.TakesFrom := ⟨cs, hs'⟩
      rw [hs']
      simp only [map_isSome]
      rw [and_assoc, from_iff hs' c hp]
      simp [hs]
    · simp [hs]
    all_goals simp
  | .union c d, t, hd, hp => by
    rw [XC.vals] at hp
    rw [conValid, mapCon, XC.Legal, XC.Known, Bool.and_eq_true, bind2_isSome, and4 (constraint_iff c t hd hp.left) (constraint_iff d t hd hp.right)]
  | .inter c d, t, hd, hp => by
    rw [XC.vals] at hp
    rw [conValid, mapCon, XC.Legal, XC.Known, Bool.and_eq_true, bind2_isSome, and4 (constraint_iff c t hd hp.left) (constraint_iff d t hd hp.right)]
  | .except c d, t, hd, hp => by
    rw [XC.vals] at hp
    rw [conValid, mapCon, XC.Legal, XC.Known, Bool.and_eq_true, bind2_isSome, and4 (constraint_iff c t hd hp.left) (constraint_iff d t hd hp.right)]
  | .root2 c d, t, hd, hp => by
    rw [XC.vals] at hp
    rw [conValid, mapCon, XC.Legal, XC.Known, Bool.and_eq_true, bind2_isSome, and4 (constraint_iff c t hd hp.left) (constraint_iff d t hd hp.right)]
  | .allExcept c, t, hd, hp => by
    rw [XC.vals] at hp
    rw [conValid, mapCon, XC.Legal, XC.Known, map_isSome, constraint_iff c t hd hp]
  | .root c, t, hd, hp => by
    rw [XC.vals] at hp
    rw [conValid, mapCon, XC.Legal, XC.Known, map_isSome, constraint_iff c t hd hp]
  | .component c, t, hd, hp => by
    rw [XC.vals] at hp
    have ih := fun e he => constraint_iff c e (NTy.isElement_distinct hd (u := e) he) hp
    rw [conValid, mapCon, XC.Legal, XC.Known, NTy.actual_eq]
    unfold NTy.IsElement at ih ⊢
    cases hs : t.stripped with
    | seqOf e cs =>
      rw [hs] at ih
      simp only [map_isSome]
      rw [ih e rfl]
      constructor
      · rintro ⟨h1, h2⟩
        exact ⟨⟨e, rfl, h1⟩, fun x hx => hx ▸ h2⟩
      · rintro ⟨⟨x, rfl, h1⟩, h2⟩
        exact ⟨h1, h2 _ rfl⟩
    | _ => simp
  | .components ncs, t, hd, hp => by
    rw [XC.vals] at hp
    have ih := named_iff ncs t hd hp
    rw [conValid, mapCon, XC.Legal, XC.Known, NTy.actual_eq, Bool.and_eq_true, Bool.and_eq_true, decide_eq_true_iff, listed_names,
      canComponents_iff]
    by_cases hc : t.TakesComponents
    · rcases hc with ⟨fs, cs, hs⟩ | ⟨fs, cs, hs⟩
      · have hc : t.TakesComponents := .inl ⟨fs, cs, hs⟩
        rw [hs] at ih ⊢
        simp only [map_isSome]
        simp only [hc, true_and]
        rw [and_assoc, ih, and_assoc]
      · have hc : t.TakesComponents := .inr ⟨fs, cs, hs⟩
        rw [hs] at ih ⊢
        simp only [map_isSome]
        simp only [hc, true_and]
        rw [and_assoc, ih, and_assoc]
    · simp [hc]
theorem named_iff : ∀ (ncs : XCs) (t : NTy), t.Distinct → Plainly ncs.vals →
    (namedValid ncs t = true ∧ (mapCons t.stripped ncs).isSome = true ↔ ncs.Legal t ∧ ncs.Known t)
  | .nil, t, _, _ => by simp [namedValid, mapCons, XCs.Legal, XCs.Known]
  | .bare nm m rest, t, hd, hp => by
    rw [XCs.vals] at hp
    have ih := named_iff rest t hd hp
    rw [namedValid, mapCons, XCs.Legal, XCs.Known]
    cases hc : t.child nm with
    | none =>
      simp only [Bool.false_and, Bool.false_eq_true, false_and, false_iff]
      rintro ⟨⟨⟨⟨i, u, hi⟩, _⟩, _⟩, _⟩
      obtain ⟨o, ho⟩ := isPart_child hd hi
      rw [hc] at ho
      cases ho
    | some q =>
      obtain ⟨o, u⟩ := q
      obtain ⟨i, hi⟩ := child_part hc
      have hu := part_isPart hi
      rw [hi]
      simp only [Bool.and_eq_true, mark_iff hd hc]
      have e : (do let p ← some (i, u); let r ← mapCons t.stripped rest; some (NCs.bare p.1 m r)).isSome = (mapCons t.stripped rest).isSome := by
        cases mapCons t.stripped rest <;> rfl
      rw [e]
      constructor
      · rintro ⟨⟨h1, h2⟩, h3⟩
        have := ih.1 ⟨h2, h3⟩
        exact ⟨⟨⟨⟨i, u, hu⟩, h1⟩, this.1⟩, this.2⟩
      · rintro ⟨⟨⟨_, h1⟩, h2⟩, h3⟩
        have := ih.2 ⟨h2, h3⟩
        exact ⟨⟨h1, this.1⟩, this.2⟩
  | .cons nm m c rest, t, hd, hp => by
    rw [XCs.vals] at hp
    have ih := named_iff rest t hd hp.right
    have ihc := fun u hu => constraint_iff c u hu hp.left
    rw [namedValid, mapCons, XCs.Legal, XCs.Known]
    cases hc : t.child nm with
    | none =>
      simp only [Bool.false_and, Bool.false_eq_true, false_and, false_iff]
      rintro ⟨⟨⟨⟨i, u, hi, _⟩, _⟩, _⟩, _⟩
      obtain ⟨o, ho⟩ := isPart_child hd hi
      rw [hc] at ho
      cases ho
    | some q =>
      obtain ⟨o, u⟩ := q
      obtain ⟨i, hi⟩ := child_part hc
      have hu := part_isPart hi
      have ihu := ihc u (NTy.isPart_distinct hd hu)
      rw [hi]
      simp only [Bool.and_eq_true, mark_iff hd hc]
      have e : (do let p ← some (i, u); let x ← mapCon p.2 c; let r ← mapCons t.stripped rest; some (NCs.cons p.1 m x r)).isSome = true ↔
          (mapCon u c).isSome = true ∧ (mapCons t.stripped rest).isSome = true := bind2_isSome
      rw [e]
      constructor
      · rintro ⟨⟨⟨h0, h1⟩, h2⟩, h3, h4⟩
        have a := ih.1 ⟨h2, h4⟩
        have b := ihu.1 ⟨h0, h3⟩
        refine ⟨⟨⟨⟨i, u, hu, b.1⟩, h1⟩, a.1⟩, fun j w hw => ?_, a.2⟩
        obtain ⟨_, rfl⟩ := NTy.isPart_unique hd hw hu
        exact b.2
      · rintro ⟨⟨⟨⟨j, w, hw, h0⟩, h1⟩, h2⟩, h3, h4⟩
        obtain ⟨_, rfl⟩ := NTy.isPart_unique hd hw hu
        have a := ih.2 ⟨h2, h4⟩
        have b := ihu.2 ⟨h0, h3 _ _ hw⟩
        exact ⟨⟨⟨b.1, h1⟩, a.1⟩, b.2, a.2⟩
end

end Asn1
