import Verif.Model.Compile
import Verif.Spec.Compile
import Verif.Proof.NotationCon
/-!
# From a type as written to the type of the back end: proofs for C100
-/
namespace Asn1

/-! ## Lists of constraints -/

theorem mapAll_nil (t : NTy) : mapAll t [] = some [] := rfl

theorem mapAll_cons {t : NTy} {c : XC} {cs : List XC} {acs : List AC} (h : mapAll t (c :: cs) = some acs) :
    ∃ ac rest, mapCon t c = some ac ∧ mapAll t cs = some rest ∧ acs = ac :: rest := by
  rw [mapAll, List.mapM_cons] at h
  simp only [Option.bind_eq_bind, Option.bind_eq_some_iff, Option.pure_def, Option.some.injEq] at h
  obtain ⟨ac, h1, rest, h2, rfl⟩ := h
  exact ⟨ac, rest, h1, h2, rfl⟩

theorem mapAll_sat {t : NTy} (hd : t.Distinct) (a : AV) : ∀ {cs : List XC} {acs : List AC}, mapAll t cs = some acs →
    (∀ c ∈ cs, c.Valued t) → ((∀ ac ∈ acs, ac.Sat a) ↔ ∀ c ∈ cs, c.Sat t a)
  | [], acs, h, _ => by
    rw [mapAll_nil] at h
    cases h
    simp
  | c :: cs, acs, h, hv => by
    obtain ⟨ac, rest, h1, h2, rfl⟩ := mapAll_cons h
    have ih := mapAll_sat hd a h2 (fun c hc => hv c (by simp [hc]))
    have h3 := mapCon_sat c t ac a h1 hd (hv c (by simp))
    simp only [List.forall_mem_cons, h3, ih]

/-! ## The meaning stays -/

mutual
theorem compile_sat (slim : Bool) : ∀ (t : NTy) (w : List XC) (ct : CTy) (a : AV), compile slim w t = some ct → t.Distinct → t.Valued →
    (ct.Sat a ↔ t.Sat a ∧ t.Formed a)
  | .int cs, w, ct, a, h, hd, hv => by
    rw [compile] at h
    simp only [Option.bind_eq_bind, Option.bind_eq_some_iff, Option.some.injEq] at h
    obtain ⟨acs, h1, r, h2, rfl⟩ := h
    rw [NTy.Valued] at hv
    rw [CTy.Sat, NTy.Sat, mapAll_sat hd a h1 hv]
    simp [NTy.Formed]
  | .real cs, w, ct, a, h, hd, hv => by
    rw [compile] at h
    simp only [Option.bind_eq_bind, Option.bind_eq_some_iff, Option.some.injEq] at h
    obtain ⟨acs, h1, rfl⟩ := h
    rw [NTy.Valued] at hv
    rw [CTy.Sat, NTy.Sat, mapAll_sat hd a h1 hv]
    simp [NTy.Formed]
  | .bool cs, w, ct, a, h, hd, hv => by
    rw [compile] at h
    simp only [Option.bind_eq_bind, Option.bind_eq_some_iff, Option.some.injEq] at h
    obtain ⟨acs, h1, rfl⟩ := h
    rw [NTy.Valued] at hv
    rw [CTy.Sat, NTy.Sat, mapAll_sat hd a h1 hv]
    simp [NTy.Formed]
  | .null cs, w, ct, a, h, hd, hv => by
    rw [compile] at h
    cases cs with
    | nil =>
      simp at h
      subst h
      simp [CTy.Sat, NTy.Sat, NTy.Formed]
    | cons c cs => simp at h
  | .enum items cs, w, ct, a, h, hd, hv => by
    rw [compile] at h
    simp only [Option.bind_eq_bind, Option.bind_eq_some_iff, Option.some.injEq] at h
    obtain ⟨acs, h1, rfl⟩ := h
    rw [NTy.Valued] at hv
    rw [CTy.Sat, NTy.Sat, mapAll_sat hd a h1 hv]
    simp [NTy.Formed]
  | .octets cs, w, ct, a, h, hd, hv => by
    rw [compile] at h
    simp only [Option.bind_eq_bind, Option.bind_eq_some_iff, Option.some.injEq] at h
    obtain ⟨acs, h1, r, h2, rfl⟩ := h
    rw [NTy.Valued] at hv
    rw [CTy.Sat, NTy.Sat, mapAll_sat hd a h1 hv]
    simp [NTy.Formed]
  | .bits cs, w, ct, a, h, hd, hv => by
    rw [compile] at h
    simp only [Option.bind_eq_bind, Option.bind_eq_some_iff, Option.some.injEq] at h
    obtain ⟨acs, h1, r, h2, rfl⟩ := h
    rw [NTy.Valued] at hv
    rw [CTy.Sat, NTy.Sat, mapAll_sat hd a h1 hv]
    simp [NTy.Formed]
  | .str cs, w, ct, a, h, hd, hv => by
    rw [compile] at h
    simp only [Option.bind_eq_bind, Option.bind_eq_some_iff, Option.some.injEq] at h
    obtain ⟨acs, h1, r, h2, al, h3, rfl⟩ := h
    rw [NTy.Valued] at hv
    rw [CTy.Sat, NTy.Sat, mapAll_sat hd a h1 hv]
    simp [NTy.Formed]
  | .oid cs, w, ct, a, h, hd, hv => by
    rw [compile] at h
    simp only [Option.bind_eq_bind, Option.bind_eq_some_iff, Option.some.injEq] at h
    obtain ⟨acs, h1, rfl⟩ := h
    rw [NTy.Valued] at hv
    rw [CTy.Sat, NTy.Sat, mapAll_sat hd a h1 hv, NTy.Formed, and_comm]
  | .seq fs cs, w, ct, a, h, hd, hv => by
    rw [compile] at h
    simp only [Option.bind_eq_bind, Option.bind_eq_some_iff, Option.some.injEq] at h
    obtain ⟨acs, h1, cfs, h2, rfl⟩ := h
    rw [NTy.Valued] at hv
    rw [CTy.Sat, NTy.Sat, mapAll_sat hd a h1 hv.1, NTy.Formed]
    rw [NTy.Distinct] at hd
    constructor
    · rintro ⟨⟨l, rfl, hl⟩, hc⟩
      have := (compileFields_sat slim fs _ cfs l h2 hd.2 hv.2).1 hl
      exact ⟨⟨hc, l, rfl, this.1⟩, fun l' e => by cases e; exact this.2⟩
    · rintro ⟨⟨hc, l, rfl, hl⟩, hf⟩
      exact ⟨⟨l, rfl, (compileFields_sat slim fs _ cfs l h2 hd.2 hv.2).2 ⟨hl, hf l rfl⟩⟩, hc⟩
  | .seqOf t cs, w, ct, a, h, hd, hv => by
    rw [compile] at h
    simp only [Option.bind_eq_bind, Option.bind_eq_some_iff, Option.some.injEq] at h
    obtain ⟨acs, h1, ce, h2, sz, h3, rfl⟩ := h
    rw [NTy.Valued] at hv
    rw [CTy.Sat, NTy.Sat, mapAll_sat hd a h1 hv.1, NTy.Formed]
    rw [NTy.Distinct] at hd
    constructor
    · rintro ⟨hc, l, rfl, hl⟩
      exact ⟨⟨hc, l, rfl, fun x hx => ((compile_sat slim t _ ce x h2 hd hv.2).1 (hl x hx)).1⟩, fun l' e x hx => by
        cases e; exact ((compile_sat slim t _ ce x h2 hd hv.2).1 (hl x hx)).2⟩
    · rintro ⟨⟨hc, l, rfl, hl⟩, hf⟩
      exact ⟨hc, l, rfl, fun x hx => (compile_sat slim t _ ce x h2 hd hv.2).2 ⟨hl x hx, hf l rfl x hx⟩⟩
  | .choice alts cs, w, ct, a, h, hd, hv => by
    rw [compile] at h
    simp only [Option.bind_eq_bind, Option.bind_eq_some_iff] at h
    obtain ⟨acs, h1, calts, h2, h3⟩ := h
    split at h3 <;> simp at h3
    subst h3
    rw [NTy.Valued] at hv
    rw [CTy.Sat, NTy.Sat, mapAll_sat hd a h1 hv.1, NTy.Formed]
    rw [NTy.Distinct] at hd
    constructor
    · rintro ⟨hc, i, v, rfl, hl⟩
      have := (compileAlts_sat slim alts _ calts i v h2 hd.2 hv.2).1 hl
      exact ⟨⟨hc, i, v, rfl, this.1⟩, fun i' v' e => by cases e; exact this.2⟩
    · rintro ⟨⟨hc, i, v, rfl, hl⟩, hf⟩
      exact ⟨hc, i, v, rfl, (compileAlts_sat slim alts _ calts i v h2 hd.2 hv.2).2 ⟨hl, hf i v rfl⟩⟩
  | .ref md tas t cs, w, ct, a, h, hd, hv => by
    rw [compile] at h
    simp only [Option.bind_eq_bind, Option.bind_eq_some_iff] at h
    obtain ⟨acs, h1, ce, h2, sz, h3, h4⟩ := h
    split at h4 <;> simp at h4
    subst h4
    rw [NTy.Valued] at hv
    rw [CTy.Sat, NTy.Sat, mapAll_sat hd a h1 hv.2, NTy.Formed]
    rw [NTy.Distinct] at hd
    rw [compile_sat slim t _ ce a h2 hd hv.1]
    constructor
    · rintro ⟨⟨h5, h6⟩, h7⟩; exact ⟨⟨h5, h7⟩, h6⟩
    · rintro ⟨⟨h5, h7⟩, h6⟩; exact ⟨⟨h5, h6⟩, h7⟩
theorem compileFields_sat (slim : Bool) : ∀ (fs : NFields) (w : List XC) (cfs : CFields) (l : List (Option AV)), compileFields slim w fs = some cfs →
    fs.Distinct → fs.Valued → (cfs.Sat l ↔ fs.Sat l ∧ fs.Formed l)
  | .nil, w, cfs, l, h, hd, hv => by
    rw [compileFields] at h
    cases h
    simp [CFields.Sat, NFields.Sat, NFields.Formed]
  | .cons nm o t rest, w, cfs, l, h, hd, hv => by
    rw [compileFields] at h
    simp only [Option.bind_eq_bind, Option.bind_eq_some_iff, Option.some.injEq] at h
    obtain ⟨co, h1, ct, h2, r, h3, rfl⟩ := h
    rw [NFields.Distinct] at hd
    rw [NFields.Valued] at hv
    cases l with
    | nil => simp [CFields.Sat, NFields.Formed]
    | cons x xs =>
      have ih := compileFields_sat slim rest w r xs h3 hd.2 hv.2
      rw [NFields.Sat, NFields.Formed]
      cases x with
      | none =>
        rw [CFields.Sat, ih]
        simp
      | some y =>
        rw [CFields.Sat, ih, compile_sat slim t _ ct y h2 hd.1 hv.1]
        simp
        constructor
        · rintro ⟨⟨h5, h6⟩, h7, h8⟩; exact ⟨⟨h5, h7⟩, h6, h8⟩
        · rintro ⟨⟨h5, h7⟩, h6, h8⟩; exact ⟨⟨h5, h6⟩, h7, h8⟩
theorem compileAlts_sat (slim : Bool) : ∀ (alts : NAlts) (w : List XC) (calts : CAlts) (i : Nat) (v : AV), compileAlts slim w alts = some calts →
    alts.Distinct → alts.Valued → (calts.Sat i v ↔ alts.Sat i v ∧ alts.Formed i v)
  | .nil, w, calts, i, v, h, hd, hv => by
    rw [compileAlts] at h
    cases h
    simp [CAlts.Sat, NAlts.Sat]
  | .cons nm t rest, w, calts, i, v, h, hd, hv => by
    rw [compileAlts] at h
    simp only [Option.bind_eq_bind, Option.bind_eq_some_iff, Option.some.injEq] at h
    obtain ⟨ct, h2, r, h3, rfl⟩ := h
    rw [NAlts.Distinct] at hd
    rw [NAlts.Valued] at hv
    cases i with
    | zero => rw [CAlts.Sat, NAlts.Sat, NAlts.Formed, compile_sat slim t _ ct v h2 hd.1 hv.1]
    | succ i => rw [CAlts.Sat, NAlts.Sat, NAlts.Formed, compileAlts_sat slim rest w r i v h3 hd.2 hv.2]
end

/-! ## Values of objects -/

mutual
theorem formed_arcs (slim : Bool) : ∀ (t : NTy) (w : List XC) (ct : CTy) (v : CVal) (a : AV), compile slim w t = some ct → meaning ct v = some a →
    (t.Formed a ↔ t.Arcs a)
  | .int cs, w, ct, v, a, h, hm => by simp only [NTy.Formed, NTy.Arcs]
  | .real cs, w, ct, v, a, h, hm => by simp only [NTy.Formed, NTy.Arcs]
  | .bool cs, w, ct, v, a, h, hm => by simp only [NTy.Formed, NTy.Arcs]
  | .null cs, w, ct, v, a, h, hm => by simp only [NTy.Formed, NTy.Arcs]
  | .enum items cs, w, ct, v, a, h, hm => by simp only [NTy.Formed, NTy.Arcs]
  | .octets cs, w, ct, v, a, h, hm => by simp only [NTy.Formed, NTy.Arcs]
  | .bits cs, w, ct, v, a, h, hm => by simp only [NTy.Formed, NTy.Arcs]
  | .str cs, w, ct, v, a, h, hm => by simp only [NTy.Formed, NTy.Arcs]
  | .oid cs, w, ct, v, a, h, hm => by
    rw [compile] at h
    simp only [Option.bind_eq_bind, Option.bind_eq_some_iff, Option.some.injEq] at h
    obtain ⟨acs, h1, rfl⟩ := h
    cases v <;> simp [meaning] at hm
    obtain ⟨_, rfl⟩ := hm
    simp [NTy.Formed, NTy.Arcs]
  | .seq fs cs, w, ct, v, a, h, hm => by
    rw [compile] at h
    simp only [Option.bind_eq_bind, Option.bind_eq_some_iff, Option.some.injEq] at h
    obtain ⟨acs, h1, cfs, h2, rfl⟩ := h
    cases v <;> simp [meaning] at hm
    obtain ⟨l, hl, rfl⟩ := hm
    have := fields_arcs slim fs _ cfs _ l h2 hl
    simp [NTy.Formed, NTy.Arcs, this]
  | .seqOf t cs, w, ct, v, a, h, hm => by
    rw [compile] at h
    simp only [Option.bind_eq_bind, Option.bind_eq_some_iff, Option.some.injEq] at h
    obtain ⟨acs, h1, ce, h2, sz, h3, rfl⟩ := h
    cases v <;> simp only [meaning, reduceCtorEq] at hm
    split at hm
    · obtain ⟨l, hl, rfl⟩ := Option.map_eq_some_iff.1 hm
      obtain ⟨k, hk0, hk⟩ := Option.bind_eq_some_iff.1 hl
      clear hk0
      have hx : ∀ x ∈ l, ∃ u, meaning ce u = some x := by
        clear hm hl h1 h2 h3
        induction k generalizing l with
        | nil =>
          simp at hk
          subst hk
          simp
        | cons y k ih =>
          rw [List.mapM_cons] at hk
          simp only [Option.bind_eq_bind, Option.bind_eq_some_iff, Option.pure_def, Option.some.injEq] at hk
          obtain ⟨z, hz, zs, hzs, rfl⟩ := hk
          intro x hx
          rcases List.mem_cons.1 hx with rfl | hx
          · exact ⟨y, hz⟩
          · exact ih zs hzs x hx
      simp only [NTy.Formed, NTy.Arcs, AV.seqOf.injEq, forall_eq']
      constructor
      · intro hf x hx'
        obtain ⟨u, hu⟩ := hx x hx'
        exact (formed_arcs slim t _ ce u x h2 hu).1 (hf x hx')
      · intro hf x hx'
        obtain ⟨u, hu⟩ := hx x hx'
        exact (formed_arcs slim t _ ce u x h2 hu).2 (hf x hx')
    · simp at hm
  | .choice alts cs, w, ct, v, a, h, hm => by
    rw [compile] at h
    simp only [Option.bind_eq_bind, Option.bind_eq_some_iff] at h
    obtain ⟨acs, h1, calts, h2, h3⟩ := h
    split at h3 <;> simp at h3
    subst h3
    cases v <;> simp only [meaning, reduceCtorEq] at hm
    split at hm
    · obtain ⟨x, hx, rfl⟩ := Option.map_eq_some_iff.1 hm
      have := alts_arcs slim alts _ calts _ _ x h2 hx
      constructor
      · intro hf
        rw [NTy.Formed] at hf
        rw [NTy.Arcs]
        intro i y e
        cases e
        exact this.1 (hf _ _ rfl)
      · intro hf
        rw [NTy.Arcs] at hf
        rw [NTy.Formed]
        intro i y e
        cases e
        exact this.2 (hf _ _ rfl)
    · simp at hm
  | .ref md tas t cs, w, ct, v, a, h, hm => by
    rw [compile] at h
    simp only [Option.bind_eq_bind, Option.bind_eq_some_iff] at h
    obtain ⟨acs, h1, ce, h2, sz, h3, h4⟩ := h
    split at h4 <;> simp at h4
    subst h4
    rw [meaning] at hm
    rw [NTy.Formed, NTy.Arcs]
    exact formed_arcs slim t _ ce v a h2 hm
theorem fields_arcs (slim : Bool) : ∀ (fs : NFields) (w : List XC) (cfs : CFields) (vs : List (Bool × CVal)) (l : List (Option AV)),
    compileFields slim w fs = some cfs → meaningFields cfs vs = some l → (fs.Formed l ↔ fs.Arcs l)
  | .nil, w, cfs, vs, l, h, hm => by simp only [NFields.Formed, NFields.Arcs]
  | .cons nm o t rest, w, cfs, vs, l, h, hm => by
    rw [compileFields] at h
    simp only [Option.bind_eq_bind, Option.bind_eq_some_iff, Option.some.injEq] at h
    obtain ⟨co, h1, ct, h2, r, h3, rfl⟩ := h
    cases vs with
    | nil => simp [meaningFields] at hm
    | cons p vs =>
      obtain ⟨e, v⟩ := p
      have key : ∃ x xs, l = x :: xs ∧ meaningFields r vs = some xs ∧ ∀ y, x = some y → meaning ct v = some y := by
        unfold meaningFields at hm
        split at hm <;> simp only [Option.bind_eq_bind, Option.bind_eq_some_iff, Option.some.injEq] at hm
        · obtain ⟨x, hx, xs, hxs, rfl⟩ := hm
          exact ⟨_, _, rfl, hxs, fun y e => by cases e; exact hx⟩
        · obtain ⟨x, hx, xs, hxs, rfl⟩ := hm
          exact ⟨_, _, rfl, hxs, fun y e => by cases e; exact hx⟩
        · obtain ⟨xs, hxs, rfl⟩ := hm
          exact ⟨_, _, rfl, hxs, fun y e => by cases e⟩
      obtain ⟨x, xs, rfl, hxs, hx⟩ := key
      rw [NFields.Formed, NFields.Arcs, fields_arcs slim rest w r vs xs h3 hxs]
      cases x with
      | none => simp
      | some y =>
        have := formed_arcs slim t _ ct v y h2 (hx y rfl)
        simp [this]
theorem alts_arcs (slim : Bool) : ∀ (alts : NAlts) (w : List XC) (calts : CAlts) (i : Nat) (u : CVal) (x : AV),
    compileAlts slim w alts = some calts → meaningAlt calts i u = some x → (alts.Formed i x ↔ alts.Arcs i x)
  | .nil, w, calts, i, u, x, h, hm => by simp only [NAlts.Formed, NAlts.Arcs]
  | .cons nm t rest, w, calts, i, u, x, h, hm => by
    rw [compileAlts] at h
    simp only [Option.bind_eq_bind, Option.bind_eq_some_iff, Option.some.injEq] at h
    obtain ⟨ct, h2, r, h3, rfl⟩ := h
    cases i with
    | zero =>
      rw [meaningAlt] at hm
      rw [NAlts.Formed, NAlts.Arcs]
      exact formed_arcs slim t _ ct u x h2 hm
    | succ i =>
      rw [meaningAlt] at hm
      rw [NAlts.Formed, NAlts.Arcs]
      exact alts_arcs slim rest w r i u x h3 hm
end

/-! ## Marks -/

theorem aboutPart_mem {nm : String} {p : Mark × Option XC} : ∀ {cs : List XC}, p ∈ aboutPart nm cs → ∃ ncs, .components ncs ∈ cs ∧ p ∈ ncs.about nm
  | [], h => by simp [aboutPart] at h
  | c :: cs, h => by
    cases c
    case components ncs =>
      rw [aboutPart, List.mem_append] at h
      rcases h with h | h
      · exact ⟨ncs, by simp, h⟩
      · obtain ⟨n, h1, h2⟩ := aboutPart_mem h
        exact ⟨n, by simp [h1], h2⟩
    all_goals
      rw [aboutPart] at h
      · obtain ⟨n, h1, h2⟩ := aboutPart_mem h
        exact ⟨n, by simp [h1], h2⟩
      · intro ncs e; cases e

theorem about_sat {t : NTy} {nm : String} {a : AV} : ∀ {ncs : XCs} {m : Mark} {oc : Option XC}, (m, oc) ∈ ncs.about nm → ncs.Sat t a →
    ∃ i u, t.IsPart nm i u ∧ m.Sat (a.part i) ∧ ∀ c, oc = some c → ∀ x, a.part i = some x → c.Sat u x
  | .nil, m, oc, h, _ => by simp [XCs.about] at h
  | .bare n m' rest, m, oc, h, hs => by
    rw [XCs.Sat] at hs
    rw [XCs.about] at h
    split at h
    · rename_i e
      subst e
      rcases List.mem_cons.1 h with h | h
      · cases h
        obtain ⟨i, u, h1, h2⟩ := hs.1
        exact ⟨i, u, h1, h2, fun c hc => by simp at hc⟩
      · exact about_sat h hs.2
    · exact about_sat h hs.2
  | .cons n m' c rest, m, oc, h, hs => by
    rw [XCs.Sat] at hs
    rw [XCs.about] at h
    split at h
    · rename_i e
      subst e
      rcases List.mem_cons.1 h with h | h
      · cases h
        obtain ⟨i, u, h1, h2, h3⟩ := hs.1
        exact ⟨i, u, h1, h2, fun c hc x hx => by cases hc; exact h3 x hx⟩
      · exact about_sat h hs.2
    · exact about_sat h hs.2

theorem firstMark_mem : ∀ {l : List (Mark × Option XC)} {m : Mark}, firstMark l = some m → ∃ oc, (m, oc) ∈ l
  | [], m, h => by simp [firstMark] at h
  | (m', oc) :: rest, m, h => by
    cases m'
    case noMark =>
      rw [firstMark] at h
      obtain ⟨oc', h⟩ := firstMark_mem h
      exact ⟨oc', by simp [h]⟩
    all_goals
      rw [firstMark] at h
      · cases h
        exact ⟨oc, by simp⟩
      · intro e; cases e

theorem elemCons_mem {c : XC} : ∀ {cs : List XC}, c ∈ elemCons cs → .component c ∈ cs
  | [], h => by simp [elemCons] at h
  | d :: cs, h => by
    cases d
    case component d =>
      rw [elemCons] at h
      rcases List.mem_cons.1 h with rfl | h
      · simp
      · simp [elemCons_mem h]
    all_goals
      rw [elemCons] at h
      · simp [elemCons_mem h]
      · intro ncs e; cases e

/-- What the marks say holds for the value of the component. -/
theorem marks_hold {t : NTy} (hd : t.Distinct) {all : List XC} {a : AV} (hs : ∀ c ∈ all, c.Sat t a) {nm : String} {i : Nat} {u : NTy}
    (hp : t.IsPart nm i u) :
    (∀ m, firstMark (aboutPart nm all) = some m → m.Sat (a.part i)) ∧
    ∀ c ∈ (aboutPart nm all).filterMap (·.2), ∀ x, a.part i = some x → c.Sat u x := by
  have key : ∀ m oc, (m, oc) ∈ aboutPart nm all → m.Sat (a.part i) ∧ ∀ c, oc = some c → ∀ x, a.part i = some x → c.Sat u x := by
    intro m oc h
    obtain ⟨ncs, h1, h2⟩ := aboutPart_mem h
    have h3 := hs _ h1
    rw [XC.Sat] at h3
    obtain ⟨j, u', h4, h5, h6⟩ := about_sat h2 h3
    obtain ⟨rfl, rfl⟩ := NTy.isPart_unique hd hp h4
    exact ⟨h5, h6⟩
  refine ⟨fun m h => ?_, fun c h x hx => ?_⟩
  · obtain ⟨oc, h⟩ := firstMark_mem h
    exact (key m oc h).1
  · obtain ⟨⟨m, oc⟩, h1, h2⟩ := List.mem_filterMap.1 h
    exact (key m oc h1).2 c h2 x hx

theorem childOpt_absent {t : NTy} {o : NOpt} {m : Option Mark} {co : COpt} (h : childOpt t o m = some co) (hw : o.Written)
    (hc : co.markedAbsent = true) : m = some .absent := by
  unfold childOpt at h
  split at h <;> simp [NOpt.Written] at hw <;> simp at h <;> try (subst h; simp [COpt.markedAbsent] at hc) <;> try rfl
  · obtain ⟨a, _, rfl⟩ := h
    simp [COpt.markedAbsent] at hc

theorem childOpt_present {t : NTy} {o : NOpt} {m : Option Mark} {co : COpt} (h : childOpt t o m = some co) (hw : o.Written)
    (hc : co.markedPresent = true) : m = some .present := by
  unfold childOpt at h
  split at h <;> simp [NOpt.Written] at hw <;> simp at h <;> try (subst h; simp [COpt.markedPresent] at hc) <;> try rfl
  · obtain ⟨a, _, rfl⟩ := h
    simp [COpt.markedPresent] at hc

mutual
theorem compile_codable_in (slim : Bool) : ∀ (t : NTy) (w : List XC) (ct : CTy) (a : AV) (ex : List AC) (xs : List XC),
    compile slim w t = some ct → t.Distinct → t.OrdinaryIn xs → t.Sat a → (∀ c ∈ w, c.Sat t a) → HeldIn ex ct a → CodableIn ex ct a
  | .int cs, w, ct, a, ex, xs, h, hd, ho, hs, hw, hh => by
    rw [compile] at h
    simp only [Option.bind_eq_bind, Option.bind_eq_some_iff, Option.some.injEq] at h
    obtain ⟨acs, h1, r, h2, rfl⟩ := h
    cases a <;> simp only [CodableIn, HeldIn] at hh ⊢
    exact hh
  | .real cs, w, ct, a, ex, xs, h, hd, ho, hs, hw, hh => by
    rw [compile] at h
    simp only [Option.bind_eq_bind, Option.bind_eq_some_iff, Option.some.injEq] at h
    obtain ⟨acs, h1, rfl⟩ := h
    cases a <;> simp only [CodableIn, HeldIn] at hh ⊢
    exact hh
  | .bool cs, w, ct, a, ex, xs, h, hd, ho, hs, hw, hh => by
    rw [compile] at h
    simp only [Option.bind_eq_bind, Option.bind_eq_some_iff, Option.some.injEq] at h
    obtain ⟨acs, h1, rfl⟩ := h
    simp only [CodableIn]
  | .null cs, w, ct, a, ex, xs, h, hd, ho, hs, hw, hh => by
    rw [compile] at h
    split at h <;> simp at h
    subst h
    simp only [CodableIn]
  | .enum items cs, w, ct, a, ex, xs, h, hd, ho, hs, hw, hh => by
    rw [compile] at h
    simp only [Option.bind_eq_bind, Option.bind_eq_some_iff, Option.some.injEq] at h
    obtain ⟨acs, h1, rfl⟩ := h
    simp only [CodableIn]
  | .octets cs, w, ct, a, ex, xs, h, hd, ho, hs, hw, hh => by
    rw [compile] at h
    simp only [Option.bind_eq_bind, Option.bind_eq_some_iff, Option.some.injEq] at h
    obtain ⟨acs, h1, r, h2, rfl⟩ := h
    simp only [CodableIn]
  | .bits cs, w, ct, a, ex, xs, h, hd, ho, hs, hw, hh => by
    rw [compile] at h
    simp only [Option.bind_eq_bind, Option.bind_eq_some_iff, Option.some.injEq] at h
    obtain ⟨acs, h1, r, h2, rfl⟩ := h
    simp only [CodableIn]
  | .str cs, w, ct, a, ex, xs, h, hd, ho, hs, hw, hh => by
    rw [compile] at h
    simp only [Option.bind_eq_bind, Option.bind_eq_some_iff, Option.some.injEq] at h
    obtain ⟨acs, h1, r, h2, al, h3, rfl⟩ := h
    simp only [CodableIn]
  | .oid cs, w, ct, a, ex, xs, h, hd, ho, hs, hw, hh => by
    rw [compile] at h
    simp only [Option.bind_eq_bind, Option.bind_eq_some_iff, Option.some.injEq] at h
    obtain ⟨acs, h1, rfl⟩ := h
    simp only [CodableIn]
  | .seq fs cs, w, ct, a, ex, xs, h, hd, ho, hs, hw, hh => by
    rw [compile] at h
    simp only [Option.bind_eq_bind, Option.bind_eq_some_iff, Option.some.injEq] at h
    obtain ⟨acs, h1, cfs, h2, rfl⟩ := h
    rw [NTy.Sat] at hs
    obtain ⟨hc, l, rfl, hl⟩ := hs
    rw [HeldIn] at hh
    rw [CodableIn]
    rw [NTy.OrdinaryIn] at ho
    have hall : ∀ c ∈ cs ++ w, c.Sat (.seq fs cs) (.seq l) := by
      intro c hc'
      rcases List.mem_append.1 hc' with h | h
      · exact hc c h
      · exact hw c h
    refine compileFields_codable slim fs (cs ++ w) cfs l (.seq fs cs) (.seq l) 0 h2 hd (by rw [NTy.Distinct] at hd; exact hd.2) ho.2 hl hall ?_ ?_ hh
    · intro i nm o u hi
      rw [Nat.zero_add]
      exact ⟨o, hi⟩
    · intro i
      rw [Nat.zero_add]
      rfl
  | .seqOf t cs, w, ct, a, ex, xs, h, hd, ho, hs, hw, hh => by
    rw [compile] at h
    simp only [Option.bind_eq_bind, Option.bind_eq_some_iff, Option.some.injEq] at h
    obtain ⟨acs, h1, ce, h2, sz, h3, rfl⟩ := h
    rw [NTy.Sat] at hs
    obtain ⟨hc, l, rfl, hl⟩ := hs
    rw [HeldIn] at hh
    rw [CodableIn]
    rw [NTy.OrdinaryIn] at ho
    rw [NTy.Distinct] at hd
    intro x hx
    refine compile_codable_in slim t _ ce x [] [] h2 hd ho.2.2 (hl x hx) (fun c hc' => ?_) (hh x hx)
    have h4 : (XC.component c).Sat (.seqOf t cs) (.seqOf l) := by
      rcases List.mem_append.1 (elemCons_mem hc') with h | h
      · exact hc _ h
      · exact hw _ h
    rw [XC.Sat] at h4
    obtain ⟨e, l', he, el, hx'⟩ := h4
    cases el
    have : t = e := he
    subst this
    exact hx' x hx
  | .choice alts cs, w, ct, a, ex, xs, h, hd, ho, hs, hw, hh => by
    rw [compile] at h
    simp only [Option.bind_eq_bind, Option.bind_eq_some_iff] at h
    obtain ⟨acs, h1, calts, h2, h3⟩ := h
    split at h3 <;> simp at h3
    subst h3
    rw [NTy.Sat] at hs
    obtain ⟨hc, i, v, rfl, hl⟩ := hs
    rw [HeldIn] at hh
    rw [CodableIn]
    rw [NTy.OrdinaryIn] at ho
    refine compileAlts_codable slim alts cs calts i v (.choice alts cs) i h2 hd (by rw [NTy.Distinct] at hd; exact hd.2) ho.2 hl hc ?_ hh
    intro nm u hi
    exact hi
  | .ref md tas t cs, w, ct, a, ex, xs, h, hd, ho, hs, hw, hh => by
    rw [compile] at h
    simp only [Option.bind_eq_bind, Option.bind_eq_some_iff] at h
    obtain ⟨acs, h1, ce, h2, sz, h3, h4⟩ := h
    split at h4 <;> simp at h4
    subst h4
    rw [NTy.Sat] at hs
    rw [HeldIn] at hh
    rw [CodableIn]
    rw [NTy.OrdinaryIn] at ho
    rw [NTy.Distinct] at hd
    exact compile_codable_in slim t [] ce a _ _ h2 hd ho hs.1 (by simp) hh
theorem compileFields_codable (slim : Bool) : ∀ (fs : NFields) (all : List XC) (cfs : CFields) (l : List (Option AV)) (T : NTy) (a : AV) (k : Nat),
    compileFields slim all fs = some cfs → T.Distinct → fs.Distinct → fs.Ordinary → fs.Sat l → (∀ c ∈ all, c.Sat T a) →
    (∀ i nm o u, fs.toList[i]? = some (nm, o, u) → T.IsPart nm (k + i) u) → (∀ i, a.part (k + i) = l[i]?.join) → HeldFields cfs l → CodableFields cfs l
  | .nil, all, cfs, l, T, a, k, h, hT, hd, ho, hs, hall, hp, hl, hh => by
    rw [compileFields] at h
    cases h
    simp only [CodableFields]
  | .cons nm o t rest, all, cfs, l, T, a, k, h, hT, hd, ho, hs, hall, hp, hl, hh => by
    rw [compileFields] at h
    simp only [Option.bind_eq_bind, Option.bind_eq_some_iff, Option.some.injEq] at h
    obtain ⟨co, h1, ct, h2, r, h3, rfl⟩ := h
    cases l with
    | nil => simp only [CodableFields]
    | cons x xs =>
      rw [NFields.Distinct] at hd
      rw [NFields.Ordinary] at ho
      rw [NFields.Sat] at hs
      rw [HeldFields] at hh
      have hpart := hp 0 nm o t (by simp [NFields.toList])
      have hm := marks_hold hT hall hpart
      have hx : a.part (k + 0) = x := by rw [hl 0]; simp
      rw [hx] at hm
      have ih := compileFields_codable slim rest all r xs T a (k + 1) h3 hT hd.2 ho.2.2 hs.2 hall
        (fun i nm o u hi => by rw [Nat.add_right_comm]; exact hp (i + 1) nm o u (by simpa [NFields.toList] using hi))
        (fun i => by rw [Nat.add_right_comm]; have := hl (i + 1); rw [← Nat.add_assoc] at this; rw [this]; simp) hh.2
      cases x with
      | none =>
        rw [CodableFields]
        refine ⟨?_, ih⟩
        cases hc : co.markedPresent with
        | false => rfl
        | true => exact absurd rfl (hm.1 .present (childOpt_present h1 ho.1 hc))
      | some y =>
        rw [CodableFields]
        refine ⟨?_, compile_codable_in slim t _ ct y [] [] h2 hd.1 ho.2.1 (hs.1 y rfl) (fun c hc => hm.2 c hc y rfl) (hh.1 y rfl), ih⟩
        cases hc : co.markedAbsent with
        | false => rfl
        | true =>
          have := hm.1 .absent (childOpt_absent h1 ho.1 hc)
          simp [Mark.Sat] at this
theorem compileAlts_codable (slim : Bool) : ∀ (alts : NAlts) (own : List XC) (calts : CAlts) (i : Nat) (v : AV) (T : NTy) (k : Nat),
    compileAlts slim own alts = some calts → T.Distinct → alts.Distinct → alts.Ordinary → alts.Sat i v → (∀ c ∈ own, c.Sat T (.choice k v)) →
    (∀ nm u, alts.toList[i]? = some (nm, u) → T.IsPart nm k u) → HeldAlt calts i v → CodableAlt calts i v
  | .nil, own, calts, i, v, T, k, h, hT, hd, ho, hs, hall, hp, hh => by
    rw [compileAlts] at h
    cases h
    simp only [CodableAlt]
  | .cons nm t rest, own, calts, i, v, T, k, h, hT, hd, ho, hs, hall, hp, hh => by
    rw [compileAlts] at h
    simp only [Option.bind_eq_bind, Option.bind_eq_some_iff, Option.some.injEq] at h
    obtain ⟨ct, h2, r, h3, rfl⟩ := h
    rw [NAlts.Distinct] at hd
    rw [NAlts.Ordinary] at ho
    cases i with
    | zero =>
      rw [NAlts.Sat] at hs
      rw [HeldAlt] at hh
      rw [CodableAlt]
      have hm := marks_hold hT hall (hp nm t (by simp [NAlts.toList]))
      exact compile_codable_in slim t _ ct v [] [] h2 hd.1 ho.1 hs (fun c hc => hm.2 c hc v (by simp [AV.part])) hh
    | succ i =>
      rw [NAlts.Sat] at hs
      rw [HeldAlt] at hh
      rw [CodableAlt]
      exact compileAlts_codable slim rest own r i v T k h3 hT hd.2 ho.2 hs hall (fun nm u hi => hp nm u (by simpa [NAlts.toList] using hi)) hh
end

theorem compile_codable (slim : Bool) (t : NTy) (w : List XC) (ct : CTy) (a : AV) (h : compile slim w t = some ct) (hd : t.Distinct) (ho : t.Ordinary)
    (hs : t.Sat a) (hw : ∀ c ∈ w, c.Sat t a) (hh : Held ct a) : Codable ct a := compile_codable_in slim t w ct a [] [] h hd ho hs hw hh

end Asn1
