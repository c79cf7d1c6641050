import Verif.Spec.AcnExpr
/-! # Proofs: the text of a presence expression -/
namespace Asn1

/-! ## The text is an expression of C -/

theorem CParses.mono {l m : Nat} {ts : List CTok} {e : AcnExp} (h : CParses l ts e) (hlm : l ≤ m) : CParses m ts e := by
  induction hlm with
  | refl => exact h
  | step _ ih => exact .up ih

theorem printExp_le (acc : List String → List String) (e : AcnExp) : (printExp acc e).1 ≤ 6 := by
  cases e with
  | bin op a b => cases op <;> simp [printExp, binPriority]
  | _ => simp [printExp]

/-- The level of the outermost operator in the grammar of C. -/
def outerLevel : AcnExp → Nat
  | .not _ => 1
  | .neg _ => 1
  | .bin op _ _ => cLevel op
  | _ => 0

theorem outerLevel_le (e : AcnExp) : outerLevel e ≤ 7 := by
  cases e with
  | bin op a b => cases op <;> simp [outerLevel, cLevel]
  | _ => simp [outerLevel]

theorem outerLevel_eq (acc : List String → List String) (e : AcnExp) (h : (printExp acc e).1 < 6) : outerLevel e = (printExp acc e).1 := by
  cases e with
  | bin op a b => cases op <;> simp_all [outerLevel, cLevel, printExp, binPriority]
  | _ => simp [outerLevel, printExp]

theorem printExp_parses (acc : List String → List String) (e : AcnExp) (h : e.NoConst) :
    CParses (outerLevel e) (printExp acc e).2 (e.withPaths acc) := by
  have wrapped : ∀ e : AcnExp, CParses (outerLevel e) (printExp acc e).2 (e.withPaths acc) → ∀ mine l, mine ≤ l + 1 → mine ≤ 6 →
      CParses l (wrap (printExp acc e) mine) (e.withPaths acc) := by
    intro e he mine l hl hm
    unfold wrap
    split
    · exact (CParses.paren (he.mono (outerLevel_le e))).mono (Nat.zero_le _)
    · have := outerLevel_eq acc e (by omega)
      exact he.mono (by omega)
  induction e with
  | int v => exact .int v
  | const n => exact absurd h (by simp [AcnExp.NoConst])
  | real t => exact .real t
  | bool b => exact .bool b
  | field p => exact .field _
  | not e ih => exact .not (wrapped e (ih h) 1 1 (by omega) (by omega))
  | neg e ih => exact .neg (wrapped e (ih h) 1 1 (by omega) (by omega))
  | bin op a b iha ihb =>
    obtain ⟨l, hl⟩ : ∃ l, cLevel op = l + 1 := by cases op <;> exact ⟨_, rfl⟩
    have hp : binPriority op ≤ l + 1 := by cases op <;> simp [binPriority, cLevel] at hl ⊢ <;> omega
    have hp6 : binPriority op ≤ 6 := by cases op <;> simp [binPriority]
    show CParses (cLevel op) _ _
    rw [hl]
    exact .bin op hl (wrapped a (iha h.1) _ _ (by omega) hp6) (wrapped b (ihb h.2) _ _ hp hp6)

/-! ## There is only one way to read it -/

mutual
/-- A parser for the grammar, with fuel. -/
def parseC : Nat → Nat → List CTok → Option (AcnExp × List CTok)
  | 0, _, _ => none
  | n + 1, 0, ts =>
    match ts with
    | .int v :: r => some (.int v, r)
    | .real t :: r => some (.real t, r)
    | .bool b :: r => some (.bool b, r)
    | .path p :: r => some (.field p, r)
    | .lparen :: r =>
      match parseC n 7 r with
      | some (e, .rparen :: r') => some (e, r')
      | _ => none
    | _ => none
  | n + 1, 1, ts =>
    match ts with
    | .bang :: r => (parseC n 1 r).map fun q => (.not q.1, q.2)
    | .op .sub :: r => (parseC n 1 r).map fun q => (.neg q.1, q.2)
    | _ => parseC n 0 ts
  | n + 1, l + 2, ts =>
    match parseC n (l + 1) ts with
    | some (a, r) => loopC n (l + 2) a r
    | none => none
/-- The operators of one level, from left to right. -/
def loopC : Nat → Nat → AcnExp → List CTok → Option (AcnExp × List CTok)
  | 0, _, _, _ => none
  | n + 1, l, a, ts =>
    match ts with
    | .op o :: us =>
      if cLevel o = l then
        match parseC n (l - 1) us with
        | some (b, r) => loopC n l (.bin o a b) r
        | none => none
      else some (a, .op o :: us)
    | ts => some (a, ts)
end

/-- The result for all fuel that is large enough. -/
def Eventually (f : Nat → Option (AcnExp × List CTok)) (v : AcnExp × List CTok) : Prop := ∃ n, ∀ k, n ≤ k → f k = some v

theorem Eventually.step {f g : Nat → Option (AcnExp × List CTok)} {v : AcnExp × List CTok} (h : Eventually g v)
    (hf : ∀ k, g k = some v → f (k + 1) = some v) : Eventually f v := by
  obtain ⟨n, h⟩ := h
  refine ⟨n + 1, fun k hk => ?_⟩
  obtain ⟨k, rfl⟩ : ∃ j, k = j + 1 := ⟨k - 1, by omega⟩
  exact hf k (h k (by omega))

theorem Eventually.step2 {f g h : Nat → Option (AcnExp × List CTok)} {u v w : AcnExp × List CTok} (hg : Eventually g u)
    (hh : Eventually h v) (hf : ∀ k, g k = some u → h k = some v → f (k + 1) = some w) : Eventually f w := by
  obtain ⟨n, hg⟩ := hg
  obtain ⟨m, hh⟩ := hh
  refine ⟨n + m + 1, fun k hk => ?_⟩
  obtain ⟨k, rfl⟩ : ∃ j, k = j + 1 := ⟨k - 1, by omega⟩
  exact hf k (hg k (by omega)) (hh k (by omega))

theorem Eventually.unique {f : Nat → Option (AcnExp × List CTok)} {v w : AcnExp × List CTok} (h : Eventually f v) (h' : Eventually f w) :
    v = w := by
  obtain ⟨n, h⟩ := h
  obtain ⟨m, h'⟩ := h'
  have a := h (n + m) (by omega)
  rw [h' (n + m) (by omega)] at a
  exact (Option.some.inj a).symm

/-- What follows an expression of level `l` does not begin with a tighter operator. -/
def FollowC (l : Nat) (rest : List CTok) : Prop := ∀ o us, rest = .op o :: us → l ≤ cLevel o

theorem loopC_done {l : Nat} {rest : List CTok} (h : ∀ o us, rest = .op o :: us → cLevel o ≠ l) (a : AcnExp) :
    Eventually (fun k => loopC k l a rest) (a, rest) := by
  refine ⟨1, fun k hk => ?_⟩
  obtain ⟨k, rfl⟩ : ∃ j, k = j + 1 := ⟨k - 1, by omega⟩
  show loopC (k + 1) l a rest = _
  unfold loopC
  split
  · rename_i o us
    rw [if_neg (h o us rfl)]
  · rfl

theorem cLevel_ge (o : AcnBin) : 2 ≤ cLevel o := by cases o <;> simp [cLevel]

/-- A primary expression does not begin with an operator. -/
theorem CParses.head0 {ts : List CTok} {e : AcnExp} (h : CParses 0 ts e) (rest : List CTok) :
    ∃ t r, ts ++ rest = t :: r ∧ t ≠ .bang ∧ ∀ o, t ≠ .op o := by
  cases h <;> exact ⟨_, _, rfl, by simp, by simp⟩

theorem loopC_low {l : Nat} (hl : l < 2) {rest : List CTok} {e : AcnExp} {v : AcnExp × List CTok}
    (h : Eventually (fun k => loopC k l e rest) v) : v = (e, rest) :=
  h.unique (loopC_done (fun o _ _ => by have := cLevel_ge o; omega) e)

theorem CParses.parse {l : Nat} {ts : List CTok} {e : AcnExp} (h : CParses l ts e) : ∀ rest v, FollowC l rest →
    Eventually (fun k => loopC k l e rest) v → Eventually (fun k => parseC k l (ts ++ rest)) v := by
  induction h with
  | int v =>
    intro rest w _ hv
    rw [loopC_low (by omega) hv]
    exact hv.step2 hv fun k _ _ => by simp [parseC]
  | real v =>
    intro rest w _ hv
    rw [loopC_low (by omega) hv]
    exact hv.step2 hv fun k _ _ => by simp [parseC]
  | bool v =>
    intro rest w _ hv
    rw [loopC_low (by omega) hv]
    exact hv.step2 hv fun k _ _ => by simp [parseC]
  | field v =>
    intro rest w _ hv
    rw [loopC_low (by omega) hv]
    exact hv.step2 hv fun k _ _ => by simp [parseC]
  | @paren ts e _ ih =>
    intro rest w _ hv
    rw [loopC_low (by omega) hv]
    have hd := ih (.rparen :: rest) (e, .rparen :: rest) (by intro o us h; simp at h) (loopC_done (by intro o us h; simp at h) e)
    refine hd.step2 hd fun k hk _ => ?_
    have ea : CTok.lparen :: (ts ++ [CTok.rparen]) ++ rest = CTok.lparen :: (ts ++ CTok.rparen :: rest) := by simp
    rw [ea]
    unfold parseC
    dsimp only
    rw [hk]
  | @up l ts e h ih =>
    intro rest w hf hv
    have hd := ih rest (e, rest) (fun o us ho => Nat.le_of_succ_le (hf o us ho))
      (loopC_done (fun o us ho => by have := hf o us ho; omega) e)
    cases l with
    | zero =>
      rw [loopC_low (by omega) hv]
      obtain ⟨t, r, ht, hb, ho⟩ := h.head0 rest
      refine hd.step fun k hk => ?_
      unfold parseC
      rw [ht] at hk ⊢
      split
      · rename_i heq; cases heq; exact absurd rfl hb
      · rename_i heq; cases heq; exact absurd rfl (ho _)
      · exact hk
    | succ l =>
      refine hd.step2 hv fun k hk hk' => ?_
      unfold parseC
      rw [hk]
      exact hk'
  | @not ts e _ ih =>
    intro rest w hf hv
    rw [loopC_low (by omega) hv]
    have hd := ih rest (e, rest) hf (loopC_done (fun o _ _ => by have := cLevel_ge o; omega) e)
    refine hd.step2 hd fun k hk _ => ?_
    show parseC (k + 1) 1 (CTok.bang :: (ts ++ rest)) = _
    unfold parseC
    dsimp only
    rw [hk]
    rfl
  | @neg ts e _ ih =>
    intro rest w hf hv
    rw [loopC_low (by omega) hv]
    have hd := ih rest (e, rest) hf (loopC_done (fun o _ _ => by have := cLevel_ge o; omega) e)
    refine hd.step2 hd fun k hk _ => ?_
    show parseC (k + 1) 1 (CTok.op .sub :: (ts ++ rest)) = _
    unfold parseC
    dsimp only
    rw [hk]
    rfl
  | @bin o l ts us a b ho _ _ iha ihb =>
    intro rest w hf hv
    have hb := ihb rest (b, rest) (fun o us ho => Nat.le_of_succ_le (hf o us ho))
      (loopC_done (fun o us ho => by have := hf o us ho; omega) b)
    have hl : Eventually (fun k => loopC k (l + 1) a (.op o :: (us ++ rest))) w := by
      refine hb.step2 hv fun k hk hk' => ?_
      unfold loopC
      dsimp only
      rw [if_pos ho, Nat.add_sub_cancel, hk]
      exact hk'
    have := iha (.op o :: (us ++ rest)) w (by intro o' us' h; cases h; omega) hl
    simpa using this

/-- The grammar is unambiguous. -/
theorem CParses.unique {l m : Nat} {ts : List CTok} {e e' : AcnExp} (h : CParses l ts e) (h' : CParses m ts e') : e = e' := by
  have done : ∀ e l, Eventually (fun k => loopC k l e []) (e, []) := fun e l => loopC_done (by intro o us h; simp at h) e
  have a := (h.mono (Nat.le_max_left l m)).parse [] (e, []) (by intro o us h; simp at h) (done _ _)
  have b := (h'.mono (Nat.le_max_right l m)).parse [] (e', []) (by intro o us h; simp at h) (done _ _)
  exact (Prod.mk.inj (a.unique b)).1

/-- Every expression has at least one token. -/
theorem CParses.ne_nil {l : Nat} {ts : List CTok} {e : AcnExp} (h : CParses l ts e) : ts ≠ [] := by
  induction h with
  | up _ ih => exact ih
  | _ => simp

/-! ## References -/

theorem fieldAccess_of_fieldType {p : List String} : ∀ {seq : SFields} {t : ExpType}, fieldType p seq = some t →
    ∃ q ty, fieldAccess p seq = some q ∧ q <+: p ∧ Leads seq q ty ∧
      (match ty with
        | .int _ _ => t = .int
        | .real => t = .real
        | .bool => t = .bool
        | _ => False) := by
  induction p with
  | nil => intro seq t h; simp [fieldType] at h
  | cons x xs ih =>
    intro seq t h
    unfold fieldType at h
    unfold fieldAccess
    split at h
    · cases h
    rename_i i o ty hfind
    split at h
    · cases h
    rename_i hi
    have hi' : i = false := by simpa using hi
    subst hi'
    split at h
    · cases h
    rw [if_neg (by simp)]
    cases ty with
    | int u w => cases h; exact ⟨[x], .int u w, rfl, by simp [List.cons_prefix_cons], .here hfind, rfl⟩
    | real => cases h; exact ⟨[x], .real, rfl, by simp [List.cons_prefix_cons], .here hfind, rfl⟩
    | bool => cases h; exact ⟨[x], .bool, rfl, by simp [List.cons_prefix_cons], .here hfind, rfl⟩
    | other => cases h
    | seq s =>
      dsimp only at h ⊢
      split at h
      rotate_left
      · cases h
      rename_i hxs
      obtain ⟨q, ty, hq, hpre, hl, ht⟩ := ih h
      rw [if_pos hxs, hq]
      exact ⟨x :: q, ty, rfl, by simpa [List.cons_prefix_cons] using hpre, .inside hfind hl, ht⟩

theorem Leads.ne_nil {s : SFields} {p : List String} {ty : FieldTy} (h : Leads s p ty) : p ≠ [] := by
  cases h <;> simp

/-- A path leads to one component. -/
theorem Leads.prefix_eq {s : SFields} {p : List String} {ty : FieldTy} (h : Leads s p ty) : ∀ {q : List String} {ty' : FieldTy},
    Leads s q ty' → q <+: p → (∀ c, ty' ≠ .seq c) → q = p := by
  induction h with
  | here hf =>
    intro q ty' hq hpre _
    have := hq.ne_nil
    rcases q with _ | ⟨y, ys⟩
    · exact absurd rfl this
    · rw [List.cons_prefix_cons] at hpre
      obtain ⟨rfl, hys⟩ := hpre
      rw [List.prefix_nil] at hys
      rw [hys]
  | inside hf _ ih =>
    intro q ty' hq hpre hns
    cases hq with
    | here hf' =>
      rw [List.cons_prefix_cons] at hpre
      obtain ⟨rfl, _⟩ := hpre
      rw [hf] at hf'
      cases hf'
      exact absurd rfl (hns _)
    | inside hf' hl =>
      rw [List.cons_prefix_cons] at hpre
      obtain ⟨rfl, hpre⟩ := hpre
      rw [hf] at hf'
      cases hf'
      rw [ih hl hpre hns]

theorem fieldAccess_self {p : List String} {seq : SFields} {t : ExpType} {ty : FieldTy} (h : fieldType p seq = some t)
    (hl : Leads seq p ty) : fieldAccess p seq = some p := by
  obtain ⟨q, ty', hq, hpre, hlq, ht⟩ := fieldAccess_of_fieldType h
  rw [hq, hl.prefix_eq hlq hpre (by rintro c rfl; exact ht)]

theorem fieldType_nested {p : List String} {seq : SFields} {ty : FieldTy} (h : Leads seq p ty) (h2 : 2 ≤ p.length) : fieldType p seq = none := by
  induction h with
  | here _ => simp at h2
  | @inside s s' x o xs t hf hl ih =>
    unfold fieldType
    rw [hf]
    cases o with
    | true => rfl
    | false =>
      show (if xs.length > 1 then fieldType xs s' else none) = none
      split
      · exact ih (by omega)
      · rfl

theorem withPaths_self {acc : List String → List String} {e : AcnExp} (h : ∀ p, e.MentionsPath p → acc p = p) : e.withPaths acc = e := by
  induction e with
  | field p => simp only [AcnExp.withPaths]; rw [h p rfl]
  | not e ih => simp only [AcnExp.withPaths]; rw [ih h]
  | neg e ih => simp only [AcnExp.withPaths]; rw [ih h]
  | bin o a b iha ihb =>
    simp only [AcnExp.withPaths]
    rw [iha fun p hp => h p (.inl hp), ihb fun p hp => h p (.inr hp)]
  | _ => rfl

theorem expType_paths {seq : SFields} {e : AcnExp} : ∀ {t : ExpType}, expType seq e = some t → ∀ p, e.MentionsPath p →
    ∃ t', fieldType p seq = some t' := by
  induction e with
  | field q => intro t h p hp; cases hp; exact ⟨t, h⟩
  | not e ih =>
    intro t h p hp
    simp only [expType] at h
    split at h
    · rename_i h1; exact ih h1 p hp
    · cases h
  | neg e ih =>
    intro t h p hp
    simp only [expType] at h
    split at h
    · rename_i h1; exact ih h1 p hp
    · rename_i h1; exact ih h1 p hp
    · cases h
  | bin o a b iha ihb =>
    intro t h p hp
    simp only [expType] at h
    split at h
    · rename_i h1 h2
      rcases hp with hp | hp
      · exact iha h1 p hp
      · exact ihb h2 p hp
    · cases h
  | _ => intro t h p hp; exact absurd hp (by simp [AcnExp.MentionsPath])

end Asn1
