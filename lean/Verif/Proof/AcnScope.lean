import Verif.Model.AcnScope
/-
Lemmas for C102: what an accepted reference to a determinant means.
-/
namespace Asn1

/-! ### Visible parameters -/

theorem find_distinctPrms (x : String) : ∀ (l : List (SId × SParam)) (seen : List String),
    seen.contains x = false →
    (distinctPrms seen l).find? (fun q => q.2.name == x) = l.find? (fun q => q.2.name == x)
  | [], _, _ => rfl
  | (o, p) :: l, seen, h => by
    unfold distinctPrms
    by_cases hp : p.name = x
    · rw [hp, h]; simp [hp]
    · by_cases hs : seen.contains p.name
      · rw [if_pos hs, find_distinctPrms x l seen h, List.find?_cons_of_neg (by simpa using hp)]
      · rw [if_neg hs, List.find?_cons_of_neg (by simpa using hp), List.find?_cons_of_neg (by simpa using hp)]
        exact find_distinctPrms x l _ (by simp at h ⊢; exact ⟨fun e => hp e.symm, h⟩)

/-- The parameters of a list of types. -/
def scopePrms (sc : List SPlace) : List (SId × SParam) := sc.flatMap fun q => q.2.params.map fun p => (q.1, p)

theorem find_own (x : String) (o : SId) : ∀ l : List SParam,
    (l.map fun p => (o, p)).find? (fun q => q.2.name == x) = (l.find? fun p => p.name == x).map fun p => (o, p)
  | [] => rfl
  | p :: l => by
    by_cases h : p.name = x
    · simp [h]
    · rw [List.map_cons, List.find?_cons_of_neg (by simpa using h), List.find?_cons_of_neg (by simpa using h), find_own x o l]

theorem find_scope_none (x : String) : ∀ sc : List SPlace,
    (scopePrms sc).find? (fun q => q.2.name == x) = none → ∀ q ∈ sc, q.2.param x = none
  | [], _, q, hq => by simp at hq
  | (o, t) :: sc, h, q, hq => by
    rw [scopePrms, List.flatMap_cons, List.find?_append, Option.or_eq_none_iff, find_own] at h
    rcases List.mem_cons.1 hq with rfl | hq
    · simpa [STy.param] using h.1
    · exact find_scope_none x sc h.2 q hq

theorem find_scope_some (x : String) (o : SId) (p : SParam) : ∀ sc : List SPlace,
    (scopePrms sc).find? (fun q => q.2.name == x) = some (o, p) →
    ∃ inner t outer, sc = inner ++ (o, t) :: outer ∧ (∀ q ∈ inner, q.2.param x = none) ∧ t.param x = some p
  | [], h => by simp [scopePrms] at h
  | (o', t) :: sc, h => by
    rw [scopePrms, List.flatMap_cons, List.find?_append, find_own] at h
    cases hp : t.param x with
    | some p' =>
      have : (t.params.find? fun p => p.name == x) = some p' := hp
      simp only [this, Option.map_some, Option.some_or, Option.some.injEq, Prod.mk.injEq] at h
      obtain ⟨rfl, rfl⟩ := h
      exact ⟨[], t, sc, rfl, by simp, hp⟩
    | none =>
      have : (t.params.find? fun p => p.name == x) = none := hp
      simp only [this, Option.map_none, Option.none_or] at h
      obtain ⟨inner, t', outer, rfl, h1, h2⟩ := find_scope_some x o p sc h
      refine ⟨(o', t) :: inner, t', outer, rfl, ?_, h2⟩
      intro q hq
      rcases List.mem_cons.1 hq with rfl | hq
      · exact hp
      · exact h1 q hq

theorem find_visible (x : String) (P : List SPlace) (me : SPlace) :
    (visible P me).find? (fun q => q.2.name == x) = (scopePrms (me :: P.reverse)).find? (fun q => q.2.name == x) := by
  rw [visible, find_distinctPrms x _ _ rfl]
  simp [scopePrms]

/-! ### Paths -/

/-- Not a reference. -/
def STy.noRef (t : STy) : Prop := ∀ z args u, t.kind ≠ .ref z args u

mutual
theorem walk_reach (s : SId) : ∀ (t : STy) (path : List String) (fid : SId) (f : SField),
    walk s t path = some (fid, f) → fid = s ++ path ∧ Reach false t path f
  | .mk ps (.seq ch), path, fid, f, h => by
    unfold walk at h
    exact walkCh_reach s ps ch path fid f h ch (fun _ h => h)
  | .mk ps (.ref z args t), path, fid, f, h => by
    unfold walk at h
    obtain ⟨h1, h2⟩ := walk_reach s t path fid f h
    exact ⟨h1, .ref h2⟩
  | .mk _ (.leaf _), _, _, _, h => by simp [walk] at h
  | .mk _ (.seqOf _ _), _, _, _, h => by simp [walk] at h
  | .mk _ (.choice _ _), _, _, _, h => by simp [walk] at h
theorem walkCh_reach (s : SId) (ps : List SParam) : ∀ (l : List SChild) (path : List String) (fid : SId) (f : SField),
    walkCh s l path = some (fid, f) → ∀ ch : List SChild, (∀ c ∈ l, c ∈ ch) →
    fid = s ++ path ∧ Reach false (.mk ps (.seq ch)) path f
  | [], path, _, _, h, _, _ => by cases path <;> simp [walkCh] at h
  | .acn n g :: l, [], _, _, h, _, _ => by simp [walkCh] at h
  | .asn n o t :: l, [], _, _, h, _, _ => by simp [walkCh] at h
  | .acn n g :: l, x :: xs, fid, f, h, ch, hs => by
    unfold walkCh at h
    by_cases hn : n = x
    · rw [if_pos hn] at h
      cases xs with
      | nil =>
        simp at h
        obtain ⟨rfl, rfl⟩ := h
        exact ⟨by rw [hn], .here (hn ▸ hs _ (by simp))⟩
      | cons y ys => simp at h
    · rw [if_neg hn] at h
      exact walkCh_reach s ps l (x :: xs) fid f h ch fun c hc => hs c (by simp [hc])
  | .asn n o t :: l, x :: xs, fid, f, h, ch, hs => by
    unfold walkCh at h
    by_cases hn : n = x
    · rw [if_pos hn] at h
      cases xs with
      | nil => simp at h
      | cons y ys =>
        simp at h
        obtain ⟨h1, h2⟩ := walk_reach (s ++ [n]) t (y :: ys) fid f h
        subst hn
        exact ⟨by rw [h1]; simp, .down (hs _ List.mem_cons_self) (by simp) h2⟩
    · rw [if_neg hn] at h
      exact walkCh_reach s ps l (x :: xs) fid f h ch fun c hc => hs c (by simp [hc])
end

theorem findSeq_noRef (x : String) (t : STy) (h : t.noRef) :
    (seqOrRef t && findSeq x t) = t.hasComponent x := by
  match t, h with
  | .mk _ (.seq ch), _ => simp [seqOrRef, findSeq, STy.hasComponent, STy.kind]
  | .mk _ (.ref z a u), h => exact absurd rfl (h z a u)
  | .mk _ (.leaf _), _ => simp [seqOrRef, STy.hasComponent, STy.kind]
  | .mk _ (.seqOf _ _), _ => simp [seqOrRef, STy.hasComponent, STy.kind]
  | .mk _ (.choice _ _), _ => simp [seqOrRef, STy.hasComponent, STy.kind]

theorem find_around (x : String) (s : SId) (t : STy) : ∀ around : List SPlace, (∀ q ∈ around, q.2.noRef) →
    (around.filter fun q => seqOrRef q.2).find? (fun q => findSeq x q.2) = some (s, t) →
    ∃ inner outer, around = inner ++ (s, t) :: outer ∧ (∀ q ∈ inner, q.2.hasComponent x = false) ∧
      t.hasComponent x = true
  | [], _, h => by simp at h
  | q :: around, hn, h => by
    have hq := findSeq_noRef x q.2 (hn q (by simp))
    by_cases hc : q.2.hasComponent x = true
    · rw [hc, Bool.and_eq_true] at hq
      rw [List.filter_cons, if_pos hq.1, List.find?_cons_of_pos (by exact hq.2), Option.some.injEq] at h
      subst h
      exact ⟨[], around, rfl, by simp, hc⟩
    · have hc' : q.2.hasComponent x = false := by simpa using hc
      have : (around.filter fun q => seqOrRef q.2).find? (fun q => findSeq x q.2) = some (s, t) := by
        rw [hc'] at hq
        by_cases h1 : seqOrRef q.2 = true
        · rw [h1, Bool.true_and] at hq
          rwa [List.filter_cons, if_pos h1, List.find?_cons_of_neg (by simp [hq])] at h
        · rwa [List.filter_cons, if_neg h1] at h
      obtain ⟨inner, outer, rfl, h1, h2⟩ := find_around x s t around (fun q hq => hn q (by simp [hq])) this
      refine ⟨q :: inner, outer, rfl, ?_, h2⟩
      intro r hr
      rcases List.mem_cons.1 hr with rfl | hr
      · exact hc'
      · exact h1 r hr

/-- The determinant is not after the type that needs it. -/
def Ordered (pos : List SId) (who : SId) : STarget → Prop
  | .param _ _ => True
  | .field fid _ => ∃ i j, posFrom 0 pos fid = some i ∧ posFrom 0 pos who = some j ∧ i ≤ j

/-- The outcome of one reference. -/
def GoodDep (R : String → String → Option SActual) (pos : List SId) (who : SId)
    (scope around : List SPlace) (path : List String) (need : SNeed) (d : SDep) : Prop :=
  ∃ tgt, d = ⟨who, tgt, depKind path need⟩ ∧ PathMeans false scope around path tgt ∧
    SuitsKind R need tgt ∧ SuitsValue R need tgt ∧ Ordered pos who tgt

theorem checkPath_good {R : String → String → Option SActual} {pos st around who P me path cp cf st'} {need : SNeed}
    (h : checkPath pos st (List.reverse around) who (visible P me) path cp cf = some st')
    (hn : ∀ q ∈ around, q.2.noRef)
    (hp : ∀ o p d, cp p = some d → d = depKind path need ∧ SuitsKind R need (.param o p) ∧ SuitsValue R need (.param o p))
    (hf : ∀ i f d, cf f = some d → d = depKind path need ∧ SuitsKind R need (.field i f) ∧ SuitsValue R need (.field i f)) :
    ∃ d, st' = d :: st ∧ GoodDep R pos who (me :: P.reverse) around path need d := by
  match path, h with
  | [], h => simp [checkPath] at h
  | x :: xs, h =>
    unfold checkPath at h
    simp only [] at h
    rw [find_visible] at h
    cases hs : (scopePrms (me :: P.reverse)).find? (fun q => q.2.name == x) with
    | some r =>
      obtain ⟨o, p⟩ := r
      rw [hs] at h
      simp only [Option.map_eq_some_iff] at h
      obtain ⟨d, h1, rfl⟩ := h
      obtain ⟨rfl, h2, h3⟩ := hp o p d h1
      obtain ⟨inner, t, outer, e, h4, h5⟩ := find_scope_some x o p _ hs
      exact ⟨_, rfl, .param o p, rfl, .param e h4 h5, h2, h3, trivial⟩
    | none =>
      rw [hs] at h
      simp only [List.reverse_reverse] at h
      cases hq : (around.filter fun q => seqOrRef q.2).find? (fun q => findSeq x q.2) with
      | none => simp [hq] at h
      | some r =>
        obtain ⟨s, t⟩ := r
        rw [hq] at h
        simp only [Option.bind_eq_some_iff] at h
        obtain ⟨⟨fid, f⟩, h1, d, h2, h3⟩ := h
        obtain ⟨rfl, hr⟩ := walk_reach s t _ fid f h1
        obtain ⟨rfl, h4, h5⟩ := hf (s ++ x :: xs) f d h2
        obtain ⟨inner, outer, e, h6, h7⟩ := find_around x s t around hn hq
        unfold addField at h3
        split at h3
        · rename_i i j hi hj
          split at h3
          · cases h3
          · cases h3
            exact ⟨_, rfl, .field (s ++ x :: xs) f, rfl, .field (find_scope_none x _ hs) e h6 h7 hr, h4, h5,
              i, j, hi, hj, by omega⟩
        · cases h3

/-! ### The references -/

theorem actualInt_some {R : String → String → Option SActual} {md ts r} (h : actualInt R md ts = some r) :
    R md ts = some (.int r.1 r.2) := by
  unfold actualInt at h
  split at h
  · rename_i lo hi e; cases h; exact e
  · cases h

theorem withinRange_iff (lo hi : Option Int) (v : Int) : withinRange lo hi v = true ↔ InRange lo hi v := by
  unfold withinRange InRange
  cases lo <;> cases hi <;> simp

theorem sizeRef_good {R : String → String → Option SActual} {pos st around who P me z st'}
    (h : sizeRef R pos st (List.reverse around) who (visible P me) (some z) = some st')
    (hn : ∀ q ∈ around, q.2.noRef) :
    ∃ d, st' = d :: st ∧ GoodDep R pos who (me :: P.reverse) around z.path (.size z.min z.max) d := by
  unfold sizeRef at h
  refine checkPath_good h hn ?_ ?_
  · intro o p d hd
    obtain ⟨n, ty⟩ := p
    cases ty with
    | int => cases hd; exact ⟨rfl, .inl rfl, trivial⟩
    | bool => cases hd
    | null => cases hd
    | ref md ts =>
      simp only [Option.map_eq_some_iff] at hd
      obtain ⟨r, h1, rfl⟩ := hd
      exact ⟨rfl, .inr ⟨md, ts, r.1, r.2, rfl, actualInt_some h1⟩, trivial⟩
  · intro i f d hd
    cases f with
    | int lo hi e =>
      cases e with
      | none => cases hd; exact ⟨rfl, ⟨lo, hi, none, rfl⟩, trivial⟩
      | some e =>
        obtain ⟨a, b⟩ := e
        by_cases hc : a ≤ z.min ∧ z.max ≤ b
        · simp only [if_pos hc] at hd
          cases hd
          exact ⟨rfl, ⟨lo, hi, _, rfl⟩, hc⟩
        · simp only [if_neg hc] at hd
          cases hd
    | null => cases hd
    | bool => cases hd
    | enum _ => cases hd
    | str _ _ => cases hd

theorem present_good {R : String → String → Option SActual} {pos st around who P me path st'}
    (h : checkPath pos st (List.reverse around) who (visible P me) path
          (fun p => if p.type = SPrm.bool then some .flag else none)
          (fun f => match f with | .bool => some .flag | _ => none) = some st')
    (hn : ∀ q ∈ around, q.2.noRef) :
    ∃ d, st' = d :: st ∧ GoodDep R pos who (me :: P.reverse) around path .flag d := by
  refine checkPath_good h hn ?_ ?_
  · intro o p d hd
    by_cases hb : p.type = .bool
    · simp only [if_pos hb] at hd; cases hd; exact ⟨rfl, hb, trivial⟩
    · simp only [if_neg hb] at hd; cases hd
  · intro i f d hd
    cases f <;> cases hd
    exact ⟨rfl, rfl, trivial⟩

theorem checkCond_good {R : String → String → Option SActual} {pos st around who P me c st'}
    (h : checkCond R pos (List.reverse around) who (visible P me) st c = some st')
    (hn : ∀ q ∈ around, q.2.noRef) :
    ∃ d, st' = d :: st ∧ GoodDep R pos who (me :: P.reverse) around c.path c.need d := by
  match c, h with
  | .int path v, h =>
    unfold checkCond at h
    refine checkPath_good h hn ?_ ?_
    · intro o p d hd
      obtain ⟨n, ty⟩ := p
      cases ty with
      | int => cases hd; exact ⟨rfl, .inl rfl, trivial⟩
      | bool => cases hd
      | null => cases hd
      | ref md ts =>
        simp only [Option.bind_eq_some_iff] at hd
        obtain ⟨r, h1, h2⟩ := hd
        split at h2
        · rename_i hw
          cases h2
          have := actualInt_some h1
          refine ⟨rfl, .inr ⟨md, ts, r.1, r.2, rfl, this⟩, ?_⟩
          intro lo hi e
          rw [this] at e; cases e
          exact (withinRange_iff _ _ _).1 hw
        · cases h2
    · intro i f d hd
      cases f with
      | int lo hi e =>
        simp only [] at hd
        split at hd
        · rename_i hw
          cases hd
          exact ⟨rfl, ⟨lo, hi, e, rfl⟩, (withinRange_iff _ _ _).1 hw⟩
        · cases hd
      | null => cases hd
      | bool => cases hd
      | enum _ => cases hd
      | str _ _ => cases hd
  | .str path v, h =>
    unfold checkCond at h
    refine checkPath_good h hn ?_ ?_
    · intro o p d hd
      obtain ⟨n, ty⟩ := p
      cases ty with
      | int => cases hd
      | bool => cases hd
      | null => cases hd
      | ref md ts =>
        simp only [] at hd
        split at hd
        · rename_i lo hi e
          split at hd
          · rename_i hw
            cases hd
            refine ⟨rfl, ⟨md, ts, lo, hi, rfl, e⟩, ?_⟩
            intro lo' hi' e'
            rw [e] at e'; cases e'
            exact hw
          · cases hd
        · cases hd
    · intro i f d hd
      cases f with
      | str lo hi =>
        simp only [] at hd
        split at hd
        · rename_i hw
          cases hd
          exact ⟨rfl, ⟨lo, hi, rfl⟩, hw⟩
        · cases hd
      | null => cases hd
      | bool => cases hd
      | enum _ => cases hd
      | int _ _ _ => cases hd

theorem choiceEnum_good {R : String → String → Option SActual} {pos st around who P me alts path st'}
    (h : choiceEnum R pos st (List.reverse around) who (visible P me) alts (some path) = some st')
    (hn : ∀ q ∈ around, q.2.noRef) :
    ∃ d, st' = d :: st ∧ GoodDep R pos who (me :: P.reverse) around path (.names (alts.map SAlt.name)) d := by
  unfold choiceEnum at h
  refine checkPath_good h hn ?_ ?_
  · intro o p d hd
    obtain ⟨n, ty⟩ := p
    cases ty with
    | int => cases hd
    | bool => cases hd
    | null => cases hd
    | ref md ts =>
      simp only [] at hd
      split at hd
      · rename_i items e
        split at hd
        · rename_i hw
          cases hd
          refine ⟨rfl, ⟨md, ts, items, rfl, e⟩, ?_⟩
          intro k e'
          rw [e] at e'; cases e'
          exact hw.symm
        · cases hd
      · cases hd
  · intro i f d hd
    cases f with
    | enum items =>
      simp only [] at hd
      split at hd
      · rename_i hw
        cases hd
        exact ⟨rfl, ⟨items, rfl⟩, hw.symm⟩
      · cases hd
    | null => cases hd
    | bool => cases hd
    | str _ _ => cases hd
    | int _ _ _ => cases hd

theorem checkArg_good {R : String → String → Option SActual} {pos st around who P me path q st'}
    (h : checkPath pos st (List.reverse around) who (visible P me) path
      (fun p => if p.type = q.type then some (.arg q) else none)
      (fun f => match f, q.type with
        | .int _ _ _, .int => some (.arg q)
        | .null, .null => some (.arg q)
        | .bool, .bool => some (.arg q)
        | _, .ref _ _ => some (.arg q)
        | _, _ => none) = some st')
    (hn : ∀ q ∈ around, q.2.noRef) :
    ∃ d, st' = d :: st ∧ GoodDep R pos who (me :: P.reverse) around path (.arg q) d := by
  obtain ⟨qn, qt⟩ := q
  refine checkPath_good h hn ?_ ?_
  · intro o p d hd
    by_cases hb : p.type = qt
    · simp only [if_pos hb] at hd; cases hd; exact ⟨rfl, hb, trivial⟩
    · simp only [if_neg hb] at hd; cases hd
  · intro i f d hd
    cases f <;> cases qt <;> cases hd <;>
      exact ⟨rfl, ⟨by simp, by simp, by simp⟩, trivial⟩

/-- The outcome of several references. -/
theorem checkConds_good {R : String → String → Option SActual} {pos around who P me}
    (hn : ∀ q ∈ around, q.2.noRef) : ∀ (cs : List SCond) (st st' : List SDep),
    checkConds R pos (List.reverse around) who (visible P me) st cs = some st' →
    ∃ ds, st' = ds ++ st ∧
      (∀ c ∈ cs, ∃ d ∈ ds, GoodDep R pos who (me :: P.reverse) around c.path c.need d) ∧
      ∀ d ∈ ds, ∃ c ∈ cs, GoodDep R pos who (me :: P.reverse) around c.path c.need d
  | [], st, st', h => by cases h; exact ⟨[], rfl, by simp, by simp⟩
  | c :: cs, st, st', h => by
    unfold checkConds at h
    simp only [Option.bind_eq_some_iff] at h
    obtain ⟨st1, h1, h2⟩ := h
    obtain ⟨d, rfl, hd⟩ := checkCond_good h1 hn
    obtain ⟨ds, rfl, h3, h4⟩ := checkConds_good hn cs _ _ h2
    refine ⟨ds ++ [d], by simp, ?_, ?_⟩
    · intro c' hc
      rcases List.mem_cons.1 hc with rfl | hc
      · exact ⟨d, by simp, hd⟩
      · obtain ⟨e, he, hg⟩ := h3 c' hc
        exact ⟨e, by simp [he], hg⟩
    · intro e he
      rcases List.mem_append.1 he with he | he
      · obtain ⟨c', hc, hg⟩ := h4 e he
        exact ⟨c', by simp [hc], hg⟩
      · simp at he; subst he
        exact ⟨c, by simp, hd⟩

theorem checkArgs_good {R : String → String → Option SActual} {pos around who P me}
    (hn : ∀ q ∈ around, q.2.noRef) : ∀ (cs : List (List String × SParam)) (st st' : List SDep),
    checkArgs pos (List.reverse around) who (visible P me) st cs = some st' →
    ∃ ds, st' = ds ++ st ∧
      (∀ c ∈ cs, ∃ d ∈ ds, GoodDep R pos who (me :: P.reverse) around c.1 (.arg c.2) d) ∧
      ∀ d ∈ ds, ∃ c ∈ cs, GoodDep R pos who (me :: P.reverse) around c.1 (.arg c.2) d
  | [], st, st', h => by cases h; exact ⟨[], rfl, by simp, by simp⟩
  | (path, q) :: cs, st, st', h => by
    unfold checkArgs at h
    simp only [Option.bind_eq_some_iff] at h
    obtain ⟨st1, h1, h2⟩ := h
    obtain ⟨d, rfl, hd⟩ := checkArg_good (R := R) h1 hn
    obtain ⟨ds, rfl, h3, h4⟩ := checkArgs_good hn cs _ _ h2
    refine ⟨ds ++ [d], by simp, ?_, ?_⟩
    · intro c' hc
      rcases List.mem_cons.1 hc with rfl | hc
      · exact ⟨d, by simp, hd⟩
      · obtain ⟨e, he, hg⟩ := h3 c' hc
        exact ⟨e, by simp [he], hg⟩
    · intro e he
      rcases List.mem_append.1 he with he | he
      · obtain ⟨c', hc, hg⟩ := h4 e he
        exact ⟨c', by simp [hc], hg⟩
      · simp at he; subst he
        exact ⟨(path, q), by simp, hd⟩

/-! ### Whole types -/

theorem occ_noRef {root around id t} (h : Occ root around id t) : ∀ q ∈ around, q.2.noRef := by
  induction h with
  | root => simp
  | ref _ ih => exact ih
  | child _ _ ih =>
    intro q hq
    rcases List.mem_cons.1 hq with rfl | hq
    · intro z a u e; cases e
    · exact ih q hq
  | elem _ ih =>
    intro q hq
    rcases List.mem_cons.1 hq with rfl | hq
    · intro z a u e; cases e
    · exact ih q hq
  | alt _ _ ih =>
    intro q hq
    rcases List.mem_cons.1 hq with rfl | hq
    · intro z a u e; cases e
    · exact ih q hq

/-- As many actual parameters as parameters, at every reference. -/
def STy.Arity (root : STy) : Prop :=
  ∀ around id ps z args t, Occ root around id (.mk ps (.ref z args t)) → args.length = t.params.length

theorem childrenArity_mem : ∀ {ch : List SChild} {n o t}, childrenArity ch = true → SChild.asn n o t ∈ ch → t.arity = true
  | .asn n' o' t' :: ch, n, o, t, hd, hm => by
    rw [childrenArity, Bool.and_eq_true] at hd
    rcases List.mem_cons.1 hm with e | hm
    · cases e; exact hd.1
    · exact childrenArity_mem hd.2 hm
  | .acn n' f :: ch, n, o, t, hd, hm => by
    rw [childrenArity] at hd
    rcases List.mem_cons.1 hm with e | hm
    · cases e
    · exact childrenArity_mem hd hm

theorem altsArity_mem : ∀ {alts : List SAlt} {n c t}, altsArity alts = true → SAlt.mk n c t ∈ alts → t.arity = true
  | .mk n' o' t' :: ch, n, o, t, hd, hm => by
    rw [altsArity, Bool.and_eq_true] at hd
    rcases List.mem_cons.1 hm with e | hm
    · cases e; exact hd.1
    · exact altsArity_mem hd.2 hm

theorem occ_arity {root around id t} (hd : root.arity = true) (h : Occ root around id t) : t.arity = true := by
  induction h with
  | root => exact hd
  | ref _ ih => simp [STy.arity, SKind.arity] at ih; exact ih.2
  | child _ hm ih => exact childrenArity_mem (by simpa [STy.arity, SKind.arity] using ih) hm
  | elem _ ih => simpa [STy.arity, SKind.arity] using ih
  | alt _ hm ih => exact altsArity_mem (by simpa [STy.arity, SKind.arity] using ih) hm

theorem arity_of {root : STy} (hd : root.arity = true) : root.Arity := by
  intro around id ps z args t ho
  have := occ_arity hd ho
  simp [STy.arity, SKind.arity] at this
  exact this.1

/-- The dependencies `ds` come from references in `root`. -/
def FromRefs (R : String → String → Option SActual) (pos : List SId) (root : STy) (ds : List SDep) : Prop :=
  ∀ d ∈ ds, ∃ who scope around path need, Refers root true who scope around path need ∧
    GoodDep R pos who scope around path need d

theorem FromRefs.append {R pos root ds es} (h : FromRefs R pos root ds) (g : FromRefs R pos root es) :
    FromRefs R pos root (ds ++ es) := by
  intro d hd
  rcases List.mem_append.1 hd with hd | hd
  · exact h d hd
  · exact g d hd

theorem sizeRef_from {R pos root around id t st st'} (ho : Occ root around id t) (z : Option SSize)
    (hz : t.kind.size = z)
    (h : sizeRef R pos st around.reverse id (visible around.reverse (id, t)) z = some st') :
    ∃ ds, st' = ds ++ st ∧ FromRefs R pos root ds := by
  cases z with
  | none => cases h; exact ⟨[], rfl, by intro d hd; cases hd⟩
  | some z =>
    obtain ⟨d, rfl, hd⟩ := sizeRef_good h (occ_noRef ho)
    rw [List.reverse_reverse] at hd
    refine ⟨[d], rfl, ?_⟩
    intro e he
    simp at he; subst he
    exact ⟨_, _, _, _, _, .size ho hz, hd⟩

theorem choiceWhen_from {R pos root around id ps d alts st st'}
    (ho : Occ root around id (.mk ps (.choice d alts)))
    (h : choiceWhen R pos st around.reverse id (visible around.reverse (id, .mk ps (.choice d alts))) d alts = some st') :
    ∃ ds, st' = ds ++ st ∧ FromRefs R pos root ds := by
  unfold choiceWhen at h
  cases d with
  | some path =>
    simp only [] at h
    split at h
    · cases h; exact ⟨[], rfl, by intro d hd; cases hd⟩
    · cases h
  | none =>
    simp only [] at h
    split at h
    · cases alts with
      | nil => cases h; exact ⟨[], rfl, by intro d hd; cases hd⟩
      | cons a rest =>
        simp only [] at h
        split at h
        · obtain ⟨ds, rfl, _, h2⟩ := checkConds_good (occ_noRef ho) a.conds _ _ h
          rw [List.reverse_reverse] at h2
          refine ⟨ds, rfl, ?_⟩
          intro e he
          obtain ⟨c, hc, hg⟩ := h2 e he
          exact ⟨_, _, _, _, _, .when ho hc, hg⟩
        · cases h
    · cases h

theorem choiceEnum_from {R pos root around id ps d alts st st'}
    (ho : Occ root around id (.mk ps (.choice d alts)))
    (h : choiceEnum R pos st around.reverse id (visible around.reverse (id, .mk ps (.choice d alts))) alts d = some st') :
    ∃ ds, st' = ds ++ st ∧ FromRefs R pos root ds := by
  cases d with
  | none => cases h; exact ⟨[], rfl, by intro d hd; cases hd⟩
  | some path =>
    obtain ⟨d, rfl, hd⟩ := choiceEnum_good h (occ_noRef ho)
    rw [List.reverse_reverse] at hd
    refine ⟨[d], rfl, ?_⟩
    intro e he
    simp at he; subst he
    exact ⟨_, _, _, _, _, .select ho, hd⟩

theorem checkArgs_from {R pos root around id ps z args t st st'}
    (ho : Occ root around id (.mk ps (.ref z args t)))
    (h : checkArgs pos around.reverse id (visible around.reverse (id, .mk ps (.ref z args t))) st (args.zip t.params) = some st') :
    ∃ ds, st' = ds ++ st ∧ FromRefs R pos root ds := by
  obtain ⟨ds, rfl, _, h2⟩ := checkArgs_good (R := R) (occ_noRef ho) _ _ _ h
  rw [List.reverse_reverse] at h2
  refine ⟨ds, rfl, ?_⟩
  intro e he
  obtain ⟨c, hc, hg⟩ := h2 e he
  exact ⟨_, _, _, _, _, .arg ho hc, hg⟩

mutual
theorem checkTy_from {R pos root} : ∀ (t : STy) {around id st st'}, Occ root around id t →
    checkTy R pos around.reverse id st t = some st' → ∃ ds, st' = ds ++ st ∧ FromRefs R pos root ds
  | .mk ps (.leaf z), around, id, st, st', ho, h => by
    unfold checkTy at h
    exact sizeRef_from ho z rfl h
  | .mk ps (.seqOf z t), around, id, st, st', ho, h => by
    unfold checkTy at h
    simp only [Option.bind_eq_some_iff] at h
    obtain ⟨st1, h1, h2⟩ := h
    obtain ⟨ds, rfl, g1⟩ := sizeRef_from ho z rfl h1
    rw [← List.reverse_cons] at h2
    obtain ⟨es, rfl, g2⟩ := checkTy_from t (.elem ho) h2
    exact ⟨es ++ ds, by simp, g2.append g1⟩
  | .mk ps (.seq ch), around, id, st, st', ho, h => by
    unfold checkTy at h
    rw [← List.reverse_cons] at h
    exact checkCh_from ch ho (fun _ h => h) h
  | .mk ps (.choice d alts), around, id, st, st', ho, h => by
    unfold checkTy at h
    simp only [Option.bind_eq_some_iff] at h
    obtain ⟨st1, h1, st2, h2, h3⟩ := h
    obtain ⟨ds, rfl, g1⟩ := choiceWhen_from ho h1
    obtain ⟨es, rfl, g2⟩ := choiceEnum_from ho h2
    rw [← List.reverse_cons] at h3
    obtain ⟨fs, rfl, g3⟩ := checkAlts_from alts ho (fun _ h => h) h3
    exact ⟨fs ++ (es ++ ds), by simp, g3.append (g2.append g1)⟩
  | .mk ps (.ref z args t), around, id, st, st', ho, h => by
    unfold checkTy at h
    simp only [Option.bind_eq_some_iff] at h
    obtain ⟨st1, h1, h2⟩ := h
    obtain ⟨ds, rfl, g1⟩ := sizeRef_from ho z rfl h1
    split at h2
    · simp only [Option.bind_eq_some_iff] at h2
      obtain ⟨st2, h2, h3⟩ := h2
      obtain ⟨es, rfl, g2⟩ := checkArgs_from (R := R) ho h2
      obtain ⟨fs, rfl, g3⟩ := checkTy_from t (.ref ho) h3
      exact ⟨fs ++ (es ++ ds), by simp, g3.append (g2.append g1)⟩
    · cases h2
      exact ⟨ds, rfl, g1⟩
theorem checkCh_from {R pos root ps} : ∀ (l : List SChild) {ch around id st st'},
    Occ root around id (.mk ps (.seq ch)) → (∀ c ∈ l, c ∈ ch) →
    checkCh R pos (visible around.reverse (id, .mk ps (.seq ch)))
      (List.reverse ((id, .mk ps (.seq ch)) :: around)) id st l = some st' →
    ∃ ds, st' = ds ++ st ∧ FromRefs R pos root ds
  | [], ch, around, id, st, st', _, _, h => by
    simp only [checkCh, Option.some.injEq] at h
    exact ⟨[], h.symm, by intro d hd; cases hd⟩
  | .acn n f :: l, ch, around, id, st, st', ho, hs, h => by
    unfold checkCh at h
    exact checkCh_from l ho (fun c hc => hs c (List.mem_cons_of_mem _ hc)) h
  | .asn n o t :: l, ch, around, id, st, st', ho, hs, h => by
    unfold checkCh at h
    simp only [Option.bind_eq_some_iff] at h
    obtain ⟨st1, h1, st2, h2, h3⟩ := h
    have hm : SChild.asn n o t ∈ ch := hs _ List.mem_cons_self
    have hc : Occ root ((id, .mk ps (.seq ch)) :: around) (id ++ [n]) t := .child ho hm
    have g1 : ∃ ds, st1 = ds ++ st ∧ FromRefs R pos root ds := by
      split at h1
      · rename_i path
        obtain ⟨d, rfl, hd⟩ := present_good (R := R) h1 (occ_noRef hc)
        rw [List.reverse_reverse] at hd
        refine ⟨[d], rfl, ?_⟩
        intro e he
        simp at he; subst he
        exact ⟨_, _, _, _, _, .present ho hm, hd⟩
      · cases h1; exact ⟨[], rfl, by intro d hd; cases hd⟩
    obtain ⟨ds, rfl, g1⟩ := g1
    obtain ⟨es, rfl, g2⟩ := checkTy_from t hc h2
    obtain ⟨fs, rfl, g3⟩ := checkCh_from l ho (fun c hc => hs c (List.mem_cons_of_mem _ hc)) h3
    exact ⟨fs ++ (es ++ ds), by simp, g3.append (g2.append g1)⟩
theorem checkAlts_from {R pos root ps d} : ∀ (l : List SAlt) {alts around id st st'},
    Occ root around id (.mk ps (.choice d alts)) → (∀ c ∈ l, c ∈ alts) →
    checkAlts R pos (List.reverse ((id, .mk ps (.choice d alts)) :: around)) id st l = some st' →
    ∃ ds, st' = ds ++ st ∧ FromRefs R pos root ds
  | [], alts, around, id, st, st', _, _, h => by
    simp only [checkAlts, Option.some.injEq] at h
    exact ⟨[], h.symm, by intro d hd; cases hd⟩
  | .mk n c t :: l, alts, around, id, st, st', ho, hs, h => by
    unfold checkAlts at h
    simp only [Option.bind_eq_some_iff] at h
    obtain ⟨st1, h1, h2⟩ := h
    have hc : Occ root ((id, .mk ps (.choice d alts)) :: around) (id ++ [n]) t := .alt ho (hs _ List.mem_cons_self)
    obtain ⟨ds, rfl, g1⟩ := checkTy_from t hc h1
    obtain ⟨es, rfl, g2⟩ := checkAlts_from l ho (fun c hc => hs c (List.mem_cons_of_mem _ hc)) h2
    exact ⟨es ++ ds, by simp, g2.append g1⟩
end

/-- The components are checked one after the other. -/
theorem checkCh_mem {R pos root ps n o t ch around id} (ho : Occ root around id (.mk ps (.seq ch))) :
    ∀ (l : List SChild) {st st'}, (∀ c ∈ l, c ∈ ch) →
    checkCh R pos (visible around.reverse (id, .mk ps (.seq ch)))
      (List.reverse ((id, .mk ps (.seq ch)) :: around)) id st l = some st' → SChild.asn n o t ∈ l →
    ∃ st0 st1 st2, (∀ path, o = some (some path) →
        checkPath pos st0 (List.reverse ((id, .mk ps (.seq ch)) :: around)) (id ++ [n])
          (visible around.reverse (id, .mk ps (.seq ch))) path
          (fun p => if p.type = SPrm.bool then some .flag else none)
          (fun f => match f with | .bool => some .flag | _ => none) = some st1) ∧
      checkTy R pos (List.reverse ((id, .mk ps (.seq ch)) :: around)) (id ++ [n]) st1 t = some st2 ∧
      (∀ d ∈ st2, d ∈ st')
  | .acn _ _ :: l, st, st', hs, h, hm => by
    unfold checkCh at h
    rcases List.mem_cons.1 hm with hm | hm
    · cases hm
    · exact checkCh_mem ho l (fun c hc => hs c (List.mem_cons_of_mem _ hc)) h hm
  | .asn n' o' t' :: l, st, st', hs, h, hm => by
    unfold checkCh at h
    simp only [Option.bind_eq_some_iff] at h
    obtain ⟨st1, h1, st2, h2, h3⟩ := h
    rcases List.mem_cons.1 hm with hm | hm
    · cases hm
      obtain ⟨ds, rfl, _⟩ := checkCh_from l ho (fun c hc => hs c (List.mem_cons_of_mem _ hc)) h3
      refine ⟨st, st1, st2, ?_, h2, fun d hd => by simp [hd]⟩
      rintro path rfl
      exact h1
    · exact checkCh_mem ho l (fun c hc => hs c (List.mem_cons_of_mem _ hc)) h3 hm

theorem checkAlts_mem {R pos root ps d n c t alts around id} (ho : Occ root around id (.mk ps (.choice d alts))) :
    ∀ (l : List SAlt) {st st'}, (∀ c ∈ l, c ∈ alts) →
    checkAlts R pos (List.reverse ((id, .mk ps (.choice d alts)) :: around)) id st l = some st' → SAlt.mk n c t ∈ l →
    ∃ st1 st2,
      checkTy R pos (List.reverse ((id, .mk ps (.choice d alts)) :: around)) (id ++ [n]) st1 t = some st2 ∧
      (∀ d ∈ st2, d ∈ st')
  | .mk n' c' t' :: l, st, st', hs, h, hm => by
    unfold checkAlts at h
    simp only [Option.bind_eq_some_iff] at h
    obtain ⟨st1, h1, h2⟩ := h
    rcases List.mem_cons.1 hm with hm | hm
    · cases hm
      obtain ⟨ds, rfl, _⟩ := checkAlts_from l ho (fun c hc => hs c (List.mem_cons_of_mem _ hc)) h2
      exact ⟨st, st1, h1, fun d hd => by simp [hd]⟩
    · exact checkAlts_mem ho l (fun c hc => hs c (List.mem_cons_of_mem _ hc)) h2 hm

/-- Every type in the tree has been checked. -/
theorem checked {R pos root fin} (ha : root.Arity) (h : checkTy R pos [] [] [] root = some fin) {around id t}
    (ho : Occ root around id t) :
    ∃ st st', checkTy R pos around.reverse id st t = some st' ∧ ∀ d ∈ st', d ∈ fin := by
  induction ho with
  | root => exact ⟨[], fin, h, fun d hd => hd⟩
  | ref ho ih =>
    obtain ⟨st, st', h1, h2⟩ := ih
    have hl := ha _ _ _ _ _ _ ho
    unfold checkTy at h1
    simp only [Option.bind_eq_some_iff, if_pos hl] at h1
    obtain ⟨st1, _, st2, _, h3⟩ := h1
    exact ⟨st2, st', h3, h2⟩
  | child ho hm ih =>
    obtain ⟨st, st', h1, h2⟩ := ih
    unfold checkTy at h1
    rw [← List.reverse_cons] at h1
    obtain ⟨st0, st1, st2, _, h3, h4⟩ := checkCh_mem ho _ (fun _ h => h) h1 hm
    exact ⟨st1, st2, h3, fun d hd => h2 d (h4 d hd)⟩
  | elem ho ih =>
    obtain ⟨st, st', h1, h2⟩ := ih
    unfold checkTy at h1
    simp only [Option.bind_eq_some_iff] at h1
    obtain ⟨st1, _, h3⟩ := h1
    rw [← List.reverse_cons] at h3
    exact ⟨st1, st', h3, h2⟩
  | alt ho hm ih =>
    obtain ⟨st, st', h1, h2⟩ := ih
    unfold checkTy at h1
    simp only [Option.bind_eq_some_iff] at h1
    obtain ⟨st1, _, st2, _, h3⟩ := h1
    rw [← List.reverse_cons] at h3
    obtain ⟨st3, st4, h5, h6⟩ := checkAlts_mem ho _ (fun _ h => h) h3 hm
    exact ⟨st3, st4, h5, fun d hd => h2 d (h6 d hd)⟩

/-! ### Sorting -/

theorem mem_insertBy {α : Type} (key : α → String) (a x : α) : ∀ l : List α, x ∈ insertBy key a l ↔ x = a ∨ x ∈ l
  | [] => by simp [insertBy]
  | b :: l => by
    unfold insertBy
    split
    · rw [List.mem_cons, mem_insertBy key a x l, List.mem_cons]
      constructor
      · rintro (h | h | h) <;> simp [h]
      · rintro (h | h | h) <;> simp [h]
    · simp

theorem mem_sortBy {α : Type} (key : α → String) (x : α) : ∀ l : List α, x ∈ sortBy key l ↔ x ∈ l
  | [] => by simp [sortBy]
  | a :: l => by rw [sortBy, mem_insertBy, mem_sortBy key x l, List.mem_cons]

theorem insertBy_map {α β : Type} (key : β → String) (f : α → β) (a : α) : ∀ l : List α,
    insertBy key (f a) (l.map f) = (insertBy (fun x => key (f x)) a l).map f
  | [] => rfl
  | b :: l => by
    rw [List.map_cons, insertBy, insertBy]
    split
    · rw [insertBy_map key f a l]; rfl
    · rfl

theorem sortBy_map {α β : Type} (key : β → String) (f : α → β) : ∀ l : List α,
    sortBy key (l.map f) = (sortBy (fun x => key (f x)) l).map f
  | [] => rfl
  | a :: l => by rw [List.map_cons, sortBy, sortBy_map key f l, insertBy_map]; rfl

theorem condPaths_mem {cs ds : List SCond} (h : condPaths cs = condPaths ds) {c : SCond} (hc : c ∈ cs) :
    ∃ d ∈ ds, d.kindNo = c.kindNo ∧ d.path = c.path := by
  have : (c.kindNo, c.path) ∈ condPaths cs := by
    unfold condPaths
    exact List.mem_map.2 ⟨c, (mem_sortBy _ _ _).2 hc, rfl⟩
  rw [h] at this
  unfold condPaths at this
  obtain ⟨d, hd, e⟩ := List.mem_map.1 this
  rw [Prod.mk.injEq] at e
  exact ⟨d, (mem_sortBy _ _ _).1 hd, e.1, e.2⟩

/-! ### Every reference -/

theorem suitsKind_need {R : String → String → Option SActual} {c d : SCond} (h : d.kindNo = c.kindNo) (tgt : STarget)
    (hs : SuitsKind R d.need tgt) : SuitsKind R c.need tgt := by
  cases c <;> cases d <;> cases tgt <;> simp_all [SCond.kindNo, SCond.need, SuitsKind]

theorem depKind_need {c d : SCond} (h : d.kindNo = c.kindNo) (hp : d.path = c.path) :
    depKind d.path d.need = depKind c.path c.need := by
  cases c <;> cases d <;> simp_all [SCond.kindNo, SCond.need, depKind, SCond.path]

theorem size_dep {R pos root around id st st'} (t : STy) (ho : Occ root around id t)
    (h : checkTy R pos around.reverse id st t = some st') (z : SSize) (hz : t.kind.size = some z) :
    ∃ d ∈ st', GoodDep R pos id ((id, t) :: around) around z.path (.size z.min z.max) d := by
  match t, ho, h, hz with
  | .mk ps (.leaf z'), ho, h, hz =>
    cases hz
    unfold checkTy at h
    obtain ⟨d, rfl, hd⟩ := sizeRef_good h (occ_noRef ho)
    rw [List.reverse_reverse] at hd
    exact ⟨d, by simp, hd⟩
  | .mk ps (.seqOf z' u), ho, h, hz =>
    cases hz
    unfold checkTy at h
    simp only [Option.bind_eq_some_iff] at h
    obtain ⟨st1, h1, h2⟩ := h
    obtain ⟨d, rfl, hd⟩ := sizeRef_good h1 (occ_noRef ho)
    rw [List.reverse_reverse] at hd
    rw [← List.reverse_cons] at h2
    obtain ⟨ds, rfl, _⟩ := checkTy_from u (.elem ho) h2
    exact ⟨d, by simp, hd⟩
  | .mk ps (.ref z' args u), ho, h, hz =>
    cases hz
    unfold checkTy at h
    simp only [Option.bind_eq_some_iff] at h
    obtain ⟨st1, h1, h2⟩ := h
    obtain ⟨d, rfl, hd⟩ := sizeRef_good h1 (occ_noRef ho)
    rw [List.reverse_reverse] at hd
    split at h2
    · simp only [Option.bind_eq_some_iff] at h2
      obtain ⟨st2, h3, h4⟩ := h2
      obtain ⟨es, rfl, _⟩ := checkArgs_from (R := R) ho h3
      obtain ⟨ds, rfl, _⟩ := checkTy_from u (.ref ho) h4
      exact ⟨d, by simp, hd⟩
    · cases h2
      exact ⟨d, by simp, hd⟩
  | .mk ps (.seq ch), _, h, hz => cases hz
  | .mk ps (.choice d a), _, h, hz => cases hz

/-- What the check of a CHOICE says. -/
theorem choice_parts {R pos root around id ps d alts st st'} (ho : Occ root around id (.mk ps (.choice d alts)))
    (h : checkTy R pos around.reverse id st (.mk ps (.choice d alts)) = some st') :
    ∃ st1 st2, choiceWhen R pos st around.reverse id (visible around.reverse (id, .mk ps (.choice d alts))) d alts = some st1 ∧
      choiceEnum R pos st1 around.reverse id (visible around.reverse (id, .mk ps (.choice d alts))) alts d = some st2 ∧
      (∀ e ∈ st1, e ∈ st') ∧ ∀ e ∈ st2, e ∈ st' := by
  unfold checkTy at h
  simp only [Option.bind_eq_some_iff] at h
  obtain ⟨st1, h1, st2, h2, h3⟩ := h
  rw [← List.reverse_cons] at h3
  obtain ⟨es, e1, _⟩ := choiceEnum_from ho h2
  obtain ⟨fs, e2, _⟩ := checkAlts_from alts ho (fun _ h => h) h3
  refine ⟨st1, st2, h1, h2, ?_, ?_⟩
  · intro e he; rw [e2, e1]; simp [he]
  · intro e he; rw [e2]; simp [he]

/-- Every reference has its dependency. -/
theorem refers_good {R pos root fin} (ha : root.Arity) (h : checkTy R pos [] [] [] root = some fin)
    {first who scope around path need} (hr : Refers root first who scope around path need) :
    ∃ d ∈ fin, ∃ tgt, d = ⟨who, tgt, depKind path need⟩ ∧ PathMeans false scope around path tgt ∧
      SuitsKind R need tgt ∧ (first = true → SuitsValue R need tgt) ∧ Ordered pos who tgt := by
  have fromGood : ∀ {who scope around path need} {st : List SDep}, (∃ d ∈ st, GoodDep R pos who scope around path need d) →
      (∀ d ∈ st, d ∈ fin) → ∃ d ∈ fin, ∃ tgt, d = ⟨who, tgt, depKind path need⟩ ∧ PathMeans false scope around path tgt ∧
      SuitsKind R need tgt ∧ SuitsValue R need tgt ∧ Ordered pos who tgt := by
    rintro who scope around path need st ⟨d, hd, tgt, h1, h2, h3, h4, h5⟩ hs
    exact ⟨d, hs d hd, tgt, h1, h2, h3, h4, h5⟩
  have conds : ∀ {around id ps d a alts c}, Occ root around id (.mk ps (.choice d (a :: alts))) → c ∈ a.conds →
      ∃ e ∈ fin, GoodDep R pos id ((id, .mk ps (.choice d (a :: alts))) :: around) around c.path c.need e := by
    intro around id ps d a alts c ho hc
    obtain ⟨st, st', h1, h2⟩ := checked ha h ho
    obtain ⟨st1, st2, h3, _, h5, _⟩ := choice_parts ho h1
    unfold choiceWhen at h3
    cases d with
    | some p =>
      simp only [] at h3
      split at h3
      · rename_i he
        have := List.all_eq_true.1 he a (by simp)
        rw [List.isEmpty_iff] at this
        rw [this] at hc; cases hc
      · cases h3
    | none =>
      simp only [] at h3
      split at h3
      · split at h3
        · obtain ⟨ds, rfl, g1, _⟩ := checkConds_good (occ_noRef ho) a.conds _ _ h3
          rw [List.reverse_reverse] at g1
          obtain ⟨e, he, hg⟩ := g1 c hc
          exact ⟨e, h2 e (h5 e (by simp [he])), hg⟩
        · cases h3
      · cases h3
  cases hr with
  | size ho hz =>
    obtain ⟨st, st', h1, h2⟩ := checked ha h ho
    obtain ⟨d, hd, tgt, e⟩ := fromGood (size_dep _ ho h1 _ hz) h2
    exact ⟨d, hd, tgt, e.1, e.2.1, e.2.2.1, fun _ => e.2.2.2.1, e.2.2.2.2⟩
  | present ho hm =>
    obtain ⟨st, st', h1, h2⟩ := checked ha h ho
    unfold checkTy at h1
    rw [← List.reverse_cons] at h1
    obtain ⟨st0, st1, st2, h3, h4, h5⟩ := checkCh_mem ho _ (fun _ h => h) h1 hm
    obtain ⟨d, rfl, hd⟩ := present_good (R := R) (h3 _ rfl) (occ_noRef (.child ho hm))
    rw [List.reverse_reverse] at hd
    obtain ⟨ds, rfl, _⟩ := checkTy_from _ (.child ho hm) h4
    obtain ⟨tgt, e⟩ := hd
    exact ⟨d, h2 d (h5 d (by simp)), tgt, e.1, e.2.1, e.2.2.1, fun _ => e.2.2.2.1, e.2.2.2.2⟩
  | select ho =>
    obtain ⟨st, st', h1, h2⟩ := checked ha h ho
    obtain ⟨st1, st2, _, h3, _, h5⟩ := choice_parts ho h1
    obtain ⟨d, rfl, hd⟩ := choiceEnum_good h3 (occ_noRef ho)
    rw [List.reverse_reverse] at hd
    obtain ⟨tgt, e⟩ := hd
    exact ⟨d, h2 d (h5 d (by simp)), tgt, e.1, e.2.1, e.2.2.1, fun _ => e.2.2.2.1, e.2.2.2.2⟩
  | when ho hc =>
    obtain ⟨d, hd, tgt, e⟩ := conds ho hc
    exact ⟨d, hd, tgt, e.1, e.2.1, e.2.2.1, fun _ => e.2.2.2.1, e.2.2.2.2⟩
  | @whenOther around id ps det a alts b c ho hb hc =>
    obtain ⟨st, st', h1, h2⟩ := checked ha h ho
    obtain ⟨st1, st2, h3, _, h5, _⟩ := choice_parts ho h1
    unfold choiceWhen at h3
    cases det with
    | some p =>
      simp only [] at h3
      split at h3
      · rename_i he
        have := List.all_eq_true.1 he b (by simp [hb])
        rw [List.isEmpty_iff] at this
        rw [this] at hc; cases hc
      · cases h3
    | none =>
      simp only [] at h3
      split at h3
      · split at h3
        · rename_i he
          have := List.all_eq_true.1 he b hb
          obtain ⟨c', hc', e1, e2⟩ := condPaths_mem (eq_of_beq this) hc
          obtain ⟨d, hd, tgt, e⟩ := conds ho hc'
          refine ⟨d, hd, tgt, ?_, ?_, suitsKind_need e1 tgt e.2.2.1, by simp, e.2.2.2.2⟩
          · rw [e.1, depKind_need e1 e2]
          · rw [← e2]; exact e.2.1
        · cases h3
      · cases h3
  | @arg around id ps z args t path p ho hm =>
    obtain ⟨st, st', h1, h2⟩ := checked ha h ho
    have hl := ha _ _ _ _ _ _ ho
    unfold checkTy at h1
    simp only [Option.bind_eq_some_iff, if_pos hl] at h1
    obtain ⟨st1, _, st2, h4, h5⟩ := h1
    obtain ⟨ds, rfl, g1, _⟩ := checkArgs_good (R := R) (occ_noRef ho) _ _ _ h4
    rw [List.reverse_reverse] at g1
    obtain ⟨es, rfl, _⟩ := checkTy_from t (.ref ho) h5
    obtain ⟨d, hd, tgt, e⟩ := g1 _ hm
    exact ⟨d, h2 d (by simp [hd]), tgt, e.1, e.2.1, e.2.2.1, fun _ => e.2.2.2.1, e.2.2.2.2⟩

end Asn1
