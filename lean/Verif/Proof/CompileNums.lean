import Verif.Proof.Compile
/-!
# The numbers in the type of the back end are computed from the constraints: proofs for C100
-/
namespace Asn1

/-- No set operation. -/
def XC.atom : XC → Bool
  | .union _ _ => false
  | .inter _ _ => false
  | .allExcept _ => false
  | .except _ _ => false
  | .root _ => false
  | .root2 _ _ => false
  | _ => true

/-- No set operation. -/
def AC.atom : AC → Bool
  | .union _ _ => false
  | .inter _ _ => false
  | .allExcept _ => false
  | .except _ _ => false
  | .root _ => false
  | .root2 _ _ => false
  | _ => true

theorem AC.con_atom {L : Type} {leaf : AC → Option L} {ac : AC} (h : ac.atom = true) : ac.con leaf = (leaf ac).map .leaf := by
  cases ac <;> first | rfl | simp [AC.atom] at h

theorem XC.leaves_atom {P : XC → Prop} {c : XC} (h : c.atom = true) : c.Leaves P = P c := by
  cases c <;> first | rfl | simp [XC.atom] at h

theorem XC.noMinInter_atom {P Q : XC → Prop} {c : XC} (h : c.atom = true) : c.NoMinInter P Q = P c := by
  cases c <;> first | rfl | simp [XC.atom] at h

theorem singleCon_atom {t : NTy} {v : VN} {ac : AC} (h : singleCon t v = some ac) : ac.atom = true := by
  unfold singleCon at h
  split at h <;> simp at h <;> subst h <;> rfl

theorem mapCon_atom {t : NTy} {c : XC} {ac : AC} (hc : c.atom = true) (h : mapCon t c = some ac) : ac.atom = true := by
  cases c <;> simp [XC.atom] at hc <;> rw [mapCon] at h
  case single => exact singleCon_atom h
  case size =>
    split at h
    · obtain ⟨x, _, rfl⟩ := Option.map_eq_some_iff.1 h
      rfl
    · simp at h
  all_goals
    cases ht : t.actual <;> rw [ht] at h <;> simp [Option.bind_eq_bind, Option.bind_eq_some_iff] at h
    all_goals
      first
        | (obtain ⟨x, _, y, _, rfl⟩ := h; rfl)
        | (obtain ⟨x, _, rfl⟩ := h; rfl)

/-- The leaves of the translated constraint come from leaves. -/
theorem con_leaves {L : Type} {leaf : AC → Option L} {t : NTy} {P : L → Prop} {Q : XC → Prop}
    (hl : ∀ c ac l, c.atom = true → Q c → mapCon t c = some ac → leaf ac = some l → P l)
    (c : XC) : ∀ (ac : AC) (x : Con L), mapCon t c = some ac → ac.con leaf = some x → c.Leaves Q → x.Leaves P := by
  have hatom : ∀ (c : XC) (ac : AC) (x : Con L), c.atom = true → mapCon t c = some ac → ac.con leaf = some x → c.Leaves Q → x.Leaves P := by
    intro c ac x hc h hx hq
    rw [AC.con_atom (mapCon_atom hc h)] at hx
    obtain ⟨l, h1, rfl⟩ := Option.map_eq_some_iff.1 hx
    rw [XC.leaves_atom hc] at hq
    exact hl c ac l hc hq h h1
  match c with
  | .union c d =>
    intro ac x h hx hq
    rw [mapCon] at h
    simp only [Option.bind_eq_bind, Option.bind_eq_some_iff, Option.some.injEq] at h
    obtain ⟨y, h1, z, h2, rfl⟩ := h
    rw [AC.con] at hx
    simp only [Option.bind_eq_bind, Option.bind_eq_some_iff, Option.some.injEq] at hx
    obtain ⟨y', h3, z', h4, rfl⟩ := hx
    exact ⟨con_leaves hl c y y' h1 h3 hq.1, con_leaves hl d z z' h2 h4 hq.2⟩
  | .inter c d =>
    intro ac x h hx hq
    rw [mapCon] at h
    simp only [Option.bind_eq_bind, Option.bind_eq_some_iff, Option.some.injEq] at h
    obtain ⟨y, h1, z, h2, rfl⟩ := h
    rw [AC.con] at hx
    simp only [Option.bind_eq_bind, Option.bind_eq_some_iff, Option.some.injEq] at hx
    obtain ⟨y', h3, z', h4, rfl⟩ := hx
    exact ⟨con_leaves hl c y y' h1 h3 hq.1, con_leaves hl d z z' h2 h4 hq.2⟩
  | .except c d =>
    intro ac x h hx hq
    rw [mapCon] at h
    simp only [Option.bind_eq_bind, Option.bind_eq_some_iff, Option.some.injEq] at h
    obtain ⟨y, h1, z, h2, rfl⟩ := h
    rw [AC.con] at hx
    simp only [Option.bind_eq_bind, Option.bind_eq_some_iff, Option.some.injEq] at hx
    obtain ⟨y', h3, z', h4, rfl⟩ := hx
    exact ⟨con_leaves hl c y y' h1 h3 hq.1, con_leaves hl d z z' h2 h4 hq.2⟩
  | .allExcept c =>
    intro ac x h hx hq
    rw [mapCon] at h
    obtain ⟨y, h1, rfl⟩ := Option.map_eq_some_iff.1 h
    rw [AC.con] at hx
    simp only [Option.bind_eq_bind, Option.bind_eq_some_iff, Option.some.injEq] at hx
    obtain ⟨y', h3, rfl⟩ := hx
    exact con_leaves hl c y y' h1 h3 hq
  | .root c =>
    intro ac x h hx hq
    rw [mapCon] at h
    obtain ⟨y, h1, rfl⟩ := Option.map_eq_some_iff.1 h
    simp [AC.con] at hx
  | .root2 c d =>
    intro ac x h hx hq
    rw [mapCon] at h
    simp only [Option.bind_eq_bind, Option.bind_eq_some_iff, Option.some.injEq] at h
    obtain ⟨y, h1, z, h2, rfl⟩ := h
    simp [AC.con] at hx
  | .single v => intro ac x; exact hatom _ ac x rfl
  | .range v1 v2 i j => intro ac x; exact hatom _ ac x rfl
  | .valMax v1 i => intro ac x; exact hatom _ ac x rfl
  | .minVal v2 j => intro ac x; exact hatom _ ac x rfl
  | .size c => intro ac x; exact hatom _ ac x rfl
  | .alphabet c => intro ac x; exact hatom _ ac x rfl
  | .component c => intro ac x; exact hatom _ ac x rfl
  | .components ncs => intro ac x; exact hatom _ ac x rfl

/-- The same for "no `MIN..v` below an intersection". -/
theorem con_noMinInter {L : Type} {leaf : AC → Option L} {t : NTy} {P R : L → Prop} {Q S : XC → Prop}
    (hl : ∀ c ac l, c.atom = true → Q c → mapCon t c = some ac → leaf ac = some l → P l)
    (hr : ∀ c ac l, c.atom = true → S c → mapCon t c = some ac → leaf ac = some l → R l)
    (c : XC) : ∀ (ac : AC) (x : Con L), mapCon t c = some ac → ac.con leaf = some x → c.NoMinInter S Q → x.NoMinInter R P := by
  have hatom : ∀ (c : XC) (ac : AC) (x : Con L), c.atom = true → mapCon t c = some ac → ac.con leaf = some x → c.NoMinInter S Q → x.NoMinInter R P := by
    intro c ac x hc h hx hq
    rw [AC.con_atom (mapCon_atom hc h)] at hx
    obtain ⟨l, h1, rfl⟩ := Option.map_eq_some_iff.1 hx
    rw [XC.noMinInter_atom hc] at hq
    exact hr c ac l hc hq h h1
  match c with
  | .union c d =>
    intro ac x h hx hq
    rw [mapCon] at h
    simp only [Option.bind_eq_bind, Option.bind_eq_some_iff, Option.some.injEq] at h
    obtain ⟨y, h1, z, h2, rfl⟩ := h
    rw [AC.con] at hx
    simp only [Option.bind_eq_bind, Option.bind_eq_some_iff, Option.some.injEq] at hx
    obtain ⟨y', h3, z', h4, rfl⟩ := hx
    exact ⟨con_noMinInter hl hr c y y' h1 h3 hq.1, con_noMinInter hl hr d z z' h2 h4 hq.2⟩
  | .inter c d =>
    intro ac x h hx hq
    rw [mapCon] at h
    simp only [Option.bind_eq_bind, Option.bind_eq_some_iff, Option.some.injEq] at h
    obtain ⟨y, h1, z, h2, rfl⟩ := h
    rw [AC.con] at hx
    simp only [Option.bind_eq_bind, Option.bind_eq_some_iff, Option.some.injEq] at hx
    obtain ⟨y', h3, z', h4, rfl⟩ := hx
    exact ⟨con_leaves hl c y y' h1 h3 hq.1, con_leaves hl d z z' h2 h4 hq.2⟩
  | .except c d =>
    intro ac x h hx hq
    rw [mapCon] at h
    simp only [Option.bind_eq_bind, Option.bind_eq_some_iff, Option.some.injEq] at h
    obtain ⟨y, h1, z, h2, rfl⟩ := h
    rw [AC.con] at hx
    simp only [Option.bind_eq_bind, Option.bind_eq_some_iff, Option.some.injEq] at hx
    obtain ⟨y', h3, z', h4, rfl⟩ := hx
    exact con_noMinInter hl hr c y y' h1 h3 hq
  | .allExcept c =>
    intro ac x h hx hq
    rw [mapCon] at h
    obtain ⟨y, h1, rfl⟩ := Option.map_eq_some_iff.1 h
    rw [AC.con] at hx
    simp only [Option.bind_eq_bind, Option.bind_eq_some_iff, Option.some.injEq] at hx
    obtain ⟨y', h3, rfl⟩ := hx
    trivial
  | .root c =>
    intro ac x h hx hq
    rw [mapCon] at h
    obtain ⟨y, h1, rfl⟩ := Option.map_eq_some_iff.1 h
    simp [AC.con] at hx
  | .root2 c d =>
    intro ac x h hx hq
    rw [mapCon] at h
    simp only [Option.bind_eq_bind, Option.bind_eq_some_iff, Option.some.injEq] at h
    obtain ⟨y, h1, z, h2, rfl⟩ := h
    simp [AC.con] at hx
  | .single v => intro ac x; exact hatom _ ac x rfl
  | .range v1 v2 i j => intro ac x; exact hatom _ ac x rfl
  | .valMax v1 i => intro ac x; exact hatom _ ac x rfl
  | .minVal v2 j => intro ac x; exact hatom _ ac x rfl
  | .size c => intro ac x; exact hatom _ ac x rfl
  | .alphabet c => intro ac x; exact hatom _ ac x rfl
  | .component c => intro ac x; exact hatom _ ac x rfl
  | .components ncs => intro ac x; exact hatom _ ac x rfl

/-! ## Inside SIZE -/

theorem posIntOf_u32 {v : VN} {x : Int} (h : posIntOf v = some x) : 0 ≤ x ∧ x < 2 ^ 32 := by
  unfold posIntOf at h
  split at h
  · split at h <;> simp at h
    subst h
    assumption
  · simp at h

theorem mapRange_props : ∀ (c : XC) (rc : Con RLeaf), mapRange posIntOf c = some rc → rc.Leaves RLeaf.U32 ∧
    (c.Leaves XC.NotMin → rc.Leaves RLeaf.NotMin) ∧
    (c.NoMinInter (fun _ => True) XC.NotMin → rc.NoMinInter (fun _ => True) RLeaf.NotMin)
  | .single v, rc, h => by
    rw [mapRange] at h
    obtain ⟨x, h1, rfl⟩ := Option.map_eq_some_iff.1 h
    exact ⟨posIntOf_u32 h1, fun _ => trivial, fun _ => trivial⟩
  | .range v1 v2 i j, rc, h => by
    rw [mapRange] at h
    simp only [Option.bind_eq_bind, Option.bind_eq_some_iff, Option.some.injEq] at h
    obtain ⟨x, h1, y, h2, rfl⟩ := h
    exact ⟨⟨posIntOf_u32 h1, posIntOf_u32 h2⟩, fun _ => trivial, fun _ => trivial⟩
  | .valMax v i, rc, h => by
    rw [mapRange] at h
    obtain ⟨x, h1, rfl⟩ := Option.map_eq_some_iff.1 h
    exact ⟨posIntOf_u32 h1, fun _ => trivial, fun _ => trivial⟩
  | .minVal v j, rc, h => by
    rw [mapRange] at h
    obtain ⟨x, h1, rfl⟩ := Option.map_eq_some_iff.1 h
    exact ⟨posIntOf_u32 h1, fun h => h.elim, fun _ => trivial⟩
  | .union c d, rc, h => by
    rw [mapRange] at h
    simp only [Option.bind_eq_bind, Option.bind_eq_some_iff, Option.some.injEq] at h
    obtain ⟨x, h1, y, h2, rfl⟩ := h
    obtain ⟨a1, a2, a3⟩ := mapRange_props c x h1
    obtain ⟨b1, b2, b3⟩ := mapRange_props d y h2
    exact ⟨⟨a1, b1⟩, fun h => ⟨a2 h.1, b2 h.2⟩, fun h => ⟨a3 h.1, b3 h.2⟩⟩
  | .inter c d, rc, h => by
    rw [mapRange] at h
    simp only [Option.bind_eq_bind, Option.bind_eq_some_iff, Option.some.injEq] at h
    obtain ⟨x, h1, y, h2, rfl⟩ := h
    obtain ⟨a1, a2, a3⟩ := mapRange_props c x h1
    obtain ⟨b1, b2, b3⟩ := mapRange_props d y h2
    exact ⟨⟨a1, b1⟩, fun h => ⟨a2 h.1, b2 h.2⟩, fun h => ⟨a2 h.1, b2 h.2⟩⟩
  | .allExcept c, rc, h => by
    rw [mapRange] at h
    obtain ⟨x, h1, rfl⟩ := Option.map_eq_some_iff.1 h
    obtain ⟨a1, a2, a3⟩ := mapRange_props c x h1
    exact ⟨a1, a2, fun _ => trivial⟩
  | .except c d, rc, h => by
    rw [mapRange] at h
    simp only [Option.bind_eq_bind, Option.bind_eq_some_iff, Option.some.injEq] at h
    obtain ⟨x, h1, y, h2, rfl⟩ := h
    obtain ⟨a1, a2, a3⟩ := mapRange_props c x h1
    obtain ⟨b1, b2, b3⟩ := mapRange_props d y h2
    exact ⟨⟨a1, b1⟩, fun h => ⟨a2 h.1, b2 h.2⟩, fun h => a3 h⟩
  | .root c, rc, h => by
    rw [mapRange] at h
    obtain ⟨x, h1, rfl⟩ := Option.map_eq_some_iff.1 h
    obtain ⟨a1, a2, a3⟩ := mapRange_props c x h1
    exact ⟨a1, a2, fun _ => trivial⟩
  | .root2 c d, rc, h => by
    rw [mapRange] at h
    simp only [Option.bind_eq_bind, Option.bind_eq_some_iff, Option.some.injEq] at h
    obtain ⟨x, h1, y, h2, rfl⟩ := h
    obtain ⟨a1, a2, a3⟩ := mapRange_props c x h1
    obtain ⟨b1, b2, b3⟩ := mapRange_props d y h2
    exact ⟨⟨a1, b1⟩, fun h => ⟨a2 h.1, b2 h.2⟩, fun _ => trivial⟩
  | .size c, rc, h => by simp [mapRange] at h
  | .alphabet c, rc, h => by simp [mapRange] at h
  | .component c, rc, h => by simp [mapRange] at h
  | .components ncs, rc, h => by simp [mapRange] at h

/-- A SIZE comes from a SIZE. -/
theorem mapCon_size {t : NTy} {c : XC} {rc : Con RLeaf} (hc : c.atom = true) (h : mapCon t c = some (.size rc)) :
    ∃ d, c = .size d ∧ mapRange posIntOf d = some rc := by
  cases c <;> simp [XC.atom] at hc <;> rw [mapCon] at h
  case single =>
    unfold singleCon at h
    split at h <;> simp at h
  case size d =>
    split at h
    · obtain ⟨x, h1, e⟩ := Option.map_eq_some_iff.1 h
      cases e
      exact ⟨d, rfl, h1⟩
    · simp at h
  all_goals
    cases ht : t.actual <;> rw [ht] at h <;> simp [Option.bind_eq_bind, Option.bind_eq_some_iff] at h

/-- A range `MIN..v` of an INTEGER comes from one. -/
theorem mapCon_range {t : NTy} {c : XC} {l : RLeaf} (hc : c.atom = true) (h : mapCon t c = some (.range l)) (hq : c.NotMin) : l.NotMin := by
  cases c <;> simp [XC.atom] at hc <;> rw [mapCon] at h
  case single =>
    unfold singleCon at h
    split at h <;> simp at h
    subst h
    trivial
  case minVal => exact hq.elim
  case size =>
    split at h
    · obtain ⟨x, h1, e⟩ := Option.map_eq_some_iff.1 h
      cases e
    · simp at h
  all_goals
    cases ht : t.actual <;> rw [ht] at h <;> simp [Option.bind_eq_bind, Option.bind_eq_some_iff] at h
    all_goals
      first
        | (obtain ⟨x, _, y, _, rfl⟩ := h; trivial)
        | (obtain ⟨x, _, rfl⟩ := h; trivial)

/-! ## Lists -/

theorem AC.cons_cons {L : Type} {leaf : AC → Option L} {ac : AC} {acs : List AC} {xs : List (Con L)} (h : AC.cons leaf (ac :: acs) = some xs) :
    ∃ x rest, ac.con leaf = some x ∧ AC.cons leaf acs = some rest ∧ xs = x :: rest := by
  rw [AC.cons] at h
  simp only [Option.bind_eq_bind, Option.bind_eq_some_iff, Option.some.injEq] at h
  obtain ⟨x, h1, rest, h2, rfl⟩ := h
  exact ⟨x, rest, h1, h2, rfl⟩

/-- Each constraint of the second list is the translation of one of the first, in the same order. -/
theorem all_cons {L : Type} {leaf : AC → Option L} {t : NTy} {P : XC → Prop} {Q : Con L → Prop}
    (hpq : ∀ c ac x, mapCon t c = some ac → ac.con leaf = some x → P c → Q x) :
    ∀ {cs : List XC} {acs : List AC} {xs : List (Con L)}, mapAll t cs = some acs → AC.cons leaf acs = some xs → (∀ c ∈ cs, P c) → ∀ x ∈ xs, Q x
  | [], acs, xs, h, hx, _ => by
    rw [mapAll_nil] at h
    cases h
    rw [AC.cons] at hx
    cases hx
    simp
  | c :: cs, acs, xs, h, hx, hp => by
    obtain ⟨ac, rest, h1, h2, rfl⟩ := mapAll_cons h
    obtain ⟨x, xs', h3, h4, rfl⟩ := AC.cons_cons hx
    intro y hy
    rcases List.mem_cons.1 hy with rfl | hy
    · exact hpq c ac _ h1 h3 (hp c (by simp))
    · exact all_cons hpq h2 h4 (fun c hc => hp c (by simp [hc])) y hy

theorem serial_cons {L : Type} {leaf : AC → Option L} {t : NTy} {P R : L → Prop} {Q S : XC → Prop}
    (hl : ∀ c ac l, c.atom = true → Q c → mapCon t c = some ac → leaf ac = some l → P l)
    (hr : ∀ c ac l, c.atom = true → S c → mapCon t c = some ac → leaf ac = some l → R l)
    {cs : List XC} {acs : List AC} {xs : List (Con L)} (h : mapAll t cs = some acs) (hx : AC.cons leaf acs = some xs)
    (hs : XC.SerialNoMin S Q cs) : SerialNoMin R P xs := by
  rcases hs with ⟨c, rfl, hc⟩ | hs
  · obtain ⟨ac, rest, h1, h2, rfl⟩ := mapAll_cons h
    rw [mapAll_nil] at h2
    cases h2
    obtain ⟨x, xs', h3, h4, rfl⟩ := AC.cons_cons hx
    rw [AC.cons] at h4
    cases h4
    exact .inl ⟨x, rfl, con_noMinInter hl hr c ac x h1 h3 hc⟩
  · exact .inr (all_cons (fun c ac x h1 h2 h3 => con_leaves hl c ac x h1 h2 h3) h hx hs)

/-- An ENUMERATED or REAL type: the constraints have leaves of that kind only. -/
theorem con_some {L : Type} {leaf : AC → Option L} {t : NTy} (hl : ∀ c ac, c.atom = true → mapCon t c = some ac → ∃ l, leaf ac = some l)
    (c : XC) : ∀ (ac : AC), mapCon t c = some ac → c.NoMarker → ∃ x, ac.con leaf = some x := by
  have hatom : ∀ (c : XC) (ac : AC), c.atom = true → mapCon t c = some ac → ∃ x, ac.con leaf = some x := by
    intro c ac hc h
    rw [AC.con_atom (mapCon_atom hc h)]
    obtain ⟨l, h1⟩ := hl c ac hc h
    exact ⟨.leaf l, by rw [h1]; rfl⟩
  match c with
  | .union c d =>
    intro ac h hq
    rw [mapCon] at h
    simp only [Option.bind_eq_bind, Option.bind_eq_some_iff, Option.some.injEq] at h
    obtain ⟨y, h1, z, h2, rfl⟩ := h
    obtain ⟨y', h3⟩ := con_some hl c y h1 hq.1
    obtain ⟨z', h4⟩ := con_some hl d z h2 hq.2
    exact ⟨.union y' z', by rw [AC.con, h3, h4]; rfl⟩
  | .inter c d =>
    intro ac h hq
    rw [mapCon] at h
    simp only [Option.bind_eq_bind, Option.bind_eq_some_iff, Option.some.injEq] at h
    obtain ⟨y, h1, z, h2, rfl⟩ := h
    obtain ⟨y', h3⟩ := con_some hl c y h1 hq.1
    obtain ⟨z', h4⟩ := con_some hl d z h2 hq.2
    exact ⟨.inter y' z', by rw [AC.con, h3, h4]; rfl⟩
  | .except c d =>
    intro ac h hq
    rw [mapCon] at h
    simp only [Option.bind_eq_bind, Option.bind_eq_some_iff, Option.some.injEq] at h
    obtain ⟨y, h1, z, h2, rfl⟩ := h
    obtain ⟨y', h3⟩ := con_some hl c y h1 hq.1
    obtain ⟨z', h4⟩ := con_some hl d z h2 hq.2
    exact ⟨.except y' z', by rw [AC.con, h3, h4]; rfl⟩
  | .allExcept c =>
    intro ac h hq
    rw [mapCon] at h
    obtain ⟨y, h1, rfl⟩ := Option.map_eq_some_iff.1 h
    obtain ⟨y', h3⟩ := con_some hl c y h1 hq
    exact ⟨.allExcept y', by rw [AC.con, h3]; rfl⟩
  | .root c => intro ac h hq; exact hq.elim
  | .root2 c d => intro ac h hq; exact hq.elim
  | .single v => intro ac h _; exact hatom _ ac rfl h
  | .range v1 v2 i j => intro ac h _; exact hatom _ ac rfl h
  | .valMax v1 i => intro ac h _; exact hatom _ ac rfl h
  | .minVal v2 j => intro ac h _; exact hatom _ ac rfl h
  | .size c => intro ac h _; exact hatom _ ac rfl h
  | .alphabet c => intro ac h _; exact hatom _ ac rfl h
  | .component c => intro ac h _; exact hatom _ ac rfl h
  | .components ncs => intro ac h _; exact hatom _ ac rfl h

theorem cons_some {L : Type} {leaf : AC → Option L} {t : NTy} (hl : ∀ c ac, c.atom = true → mapCon t c = some ac → ∃ l, leaf ac = some l) :
    ∀ {cs : List XC} {acs : List AC}, mapAll t cs = some acs → (∀ c ∈ cs, c.NoMarker) → ∃ xs, AC.cons leaf acs = some xs
  | [], acs, h, _ => by
    rw [mapAll_nil] at h
    cases h
    exact ⟨[], rfl⟩
  | c :: cs, acs, h, hp => by
    obtain ⟨ac, rest, h1, h2, rfl⟩ := mapAll_cons h
    obtain ⟨x, h3⟩ := con_some hl c ac h1 (hp c (by simp))
    obtain ⟨xs, h4⟩ := cons_some hl h2 (fun c hc => hp c (by simp [hc]))
    exact ⟨x :: xs, by rw [AC.cons, h3, h4]; rfl⟩

theorem enum_leaf {items : List (String × Int)} {cs : List XC} {c : XC} {ac : AC} (hc : c.atom = true)
    (h : mapCon (.enum items cs) c = some ac) : ∃ l, itemLeaf ac = some l := by
  cases c <;> simp [XC.atom] at hc <;> simp [mapCon, NTy.actual, NTy.sizeable] at h
  unfold singleCon at h
  split at h <;> simp [NTy.actual] at * <;> subst h
  exact ⟨_, rfl⟩

theorem real_leaf {cs : List XC} {c : XC} {ac : AC} (hc : c.atom = true) (h : mapCon (.real cs) c = some ac) : ∃ l, realLeaf ac = some l := by
  cases c <;> simp [XC.atom] at hc <;> simp [mapCon, NTy.actual, NTy.sizeable, Option.bind_eq_some_iff] at h
  · unfold singleCon at h
    split at h <;> simp [NTy.actual] at * <;> subst h
    exact ⟨_, rfl⟩
  · obtain ⟨x, _, y, _, rfl⟩ := h; exact ⟨_, rfl⟩
  · obtain ⟨x, _, rfl⟩ := h; exact ⟨_, rfl⟩
  · obtain ⟨x, _, rfl⟩ := h; exact ⟨_, rfl⟩

/-! ## Sizes -/

theorem sizeMinMax_some {r : Option Rng} {sz : Nat × Nat} (h : sizeMinMax r = some sz) : r = some (.concrete sz.1 sz.2) := by
  unfold sizeMinMax at h
  split at h
  · split at h <;> simp at h
    rename_i a b hab
    subst h
    simp only
    rw [Int.toNat_of_nonneg hab.1, Int.toNat_of_nonneg hab.2]
  · simp at h

theorem octet_size {ac : AC} {l : SizeLeaf (List Byte)} (h : octetLeaf ac = some l) : (∃ c, ac = .size c ∧ l = .size c) ∨ ∃ v, l = .single v := by
  cases ac <;> simp [octetLeaf] at h <;> subst h <;> simp

theorem bit_size {ac : AC} {l : SizeLeaf (List Bool)} (h : bitLeaf ac = some l) : (∃ c, ac = .size c ∧ l = .size c) ∨ ∃ v, l = .single v := by
  cases ac <;> simp [bitLeaf] at h <;> subst h <;> simp

theorem elem_size {ac : AC} {l : SizeLeaf (List AV)} (h : elemLeaf ac = some l) : (∃ c, ac = .size c ∧ l = .size c) ∨ ∃ v, l = .single v := by
  cases ac <;> simp [elemLeaf] at h <;> subst h <;> simp

/-- The conditions of C33 on the constraints of a sizeable type. -/
theorem sizes_ok {V : Type} {leaf : AC → Option (SizeLeaf V)}
    (hleaf : ∀ ac l, leaf ac = some l → (∃ c, ac = .size c ∧ l = .size c) ∨ ∃ v, l = .single v) {t : NTy} {cs : List XC} {acs : List AC}
    {xs : List (Con (SizeLeaf V))} (h : mapAll t cs = some acs) (hx : AC.cons leaf acs = some xs)
    (hs : XC.SerialNoMin XC.SizeNoMinInter XC.SizeNotMin cs) :
    (∀ c ∈ xs, c.Leaves SizeLeaf.U32) ∧ SerialNoMin SizeLeaf.NoMinInter SizeLeaf.NotMin xs := by
  constructor
  · refine all_cons (P := XC.Leaves fun _ => True) (fun c ac x h1 h2 h3 => con_leaves (fun c ac l hc _ h4 h5 => ?_) c ac x h1 h2 h3) h hx ?_
    · rcases hleaf ac l h5 with ⟨rc, rfl, rfl⟩ | ⟨v, rfl⟩
      · obtain ⟨d, rfl, h6⟩ := mapCon_size hc h4
        exact (mapRange_props d rc h6).1
      · trivial
    · intro c _
      have : ∀ c : XC, c.Leaves fun _ => True := by
        intro c
        induction c using XC.rec (motive_2 := fun _ => True) <;> simp_all [XC.Leaves]
      exact this c
  · refine serial_cons (fun c ac l hc hq h4 h5 => ?_) (fun c ac l hc hq h4 h5 => ?_) h hx hs
    · rcases hleaf ac l h5 with ⟨rc, rfl, rfl⟩ | ⟨v, rfl⟩
      · obtain ⟨d, rfl, h6⟩ := mapCon_size hc h4
        exact (mapRange_props d rc h6).2.1 hq
      · trivial
    · rcases hleaf ac l h5 with ⟨rc, rfl, rfl⟩ | ⟨v, rfl⟩
      · obtain ⟨d, rfl, h6⟩ := mapCon_size hc h4
        exact (mapRange_props d rc h6).2.2 hq
      · trivial

theorem str_size {ac : AC} {l : StrLeaf} (h : strLeaf ac = some l) : (∃ c, ac = .size c ∧ l = .size c) ∨ (∃ v, l = .single v) ∨ ∃ c, l = .alphabet c := by
  cases ac <;> simp [strLeaf] at h <;> subst h <;> simp

theorem strs_ok {t : NTy} {cs : List XC} {acs : List AC} {xs : List (Con StrLeaf)} (h : mapAll t cs = some acs) (hx : AC.cons strLeaf acs = some xs)
    (hs : XC.SerialNoMin XC.SizeNoMinInter XC.SizeNotMin cs) :
    (∀ c ∈ xs, c.Leaves StrLeaf.U32) ∧ SerialNoMin StrLeaf.NoMinInter StrLeaf.NotMin xs := by
  constructor
  · refine all_cons (P := XC.Leaves fun _ => True) (fun c ac x h1 h2 h3 => con_leaves (fun c ac l hc _ h4 h5 => ?_) c ac x h1 h2 h3) h hx ?_
    · rcases str_size h5 with ⟨rc, rfl, rfl⟩ | ⟨v, rfl⟩ | ⟨v, rfl⟩
      · obtain ⟨d, rfl, h6⟩ := mapCon_size hc h4
        exact (mapRange_props d rc h6).1
      · trivial
      · trivial
    · intro c _
      have : ∀ c : XC, c.Leaves fun _ => True := by
        intro c
        induction c using XC.rec (motive_2 := fun _ => True) <;> simp_all [XC.Leaves]
      exact this c
  · refine serial_cons (fun c ac l hc hq h4 h5 => ?_) (fun c ac l hc hq h4 h5 => ?_) h hx hs
    · rcases str_size h5 with ⟨rc, rfl, rfl⟩ | ⟨v, rfl⟩ | ⟨v, rfl⟩
      · obtain ⟨d, rfl, h6⟩ := mapCon_size hc h4
        exact (mapRange_props d rc h6).2.1 hq
      · trivial
      · trivial
    · rcases str_size h5 with ⟨rc, rfl, rfl⟩ | ⟨v, rfl⟩ | ⟨v, rfl⟩
      · obtain ⟨d, rfl, h6⟩ := mapCon_size hc h4
        exact (mapRange_props d rc h6).2.2 hq
      · trivial
      · trivial

/-- WITH COMPONENT is left out before and after the translation. -/
theorem mapAll_sizeCons {t : NTy} : ∀ {cs : List XC} {acs : List AC}, mapAll t cs = some acs → mapAll t (cs.filter XC.notComponent) = some (sizeCons acs)
  | [], acs, h => by
    rw [mapAll_nil] at h
    cases h
    rfl
  | c :: cs, acs, h => by
    obtain ⟨ac, rest, h1, h2, rfl⟩ := mapAll_cons h
    have ih := mapAll_sizeCons h2
    have key : (∃ d, c = .component d) ↔ ∃ d, ac = .component d := by
      constructor
      · rintro ⟨d, rfl⟩
        rw [mapCon] at h1
        cases ht : t.actual <;> rw [ht] at h1 <;> simp at h1
        obtain ⟨x, _, rfl⟩ := h1
        exact ⟨x, rfl⟩
      · rintro ⟨d, rfl⟩
        cases c <;> rw [mapCon] at h1
        case component c => exact ⟨c, rfl⟩
        case single =>
          unfold singleCon at h1
          split at h1 <;> simp at h1
        case size => split at h1 <;> simp at h1
        case union => simp [Option.bind_eq_some_iff] at h1
        case inter => simp [Option.bind_eq_some_iff] at h1
        case except => simp [Option.bind_eq_some_iff] at h1
        case root2 => simp [Option.bind_eq_some_iff] at h1
        case allExcept => simp at h1
        case root => simp at h1
        all_goals cases ht : t.actual <;> rw [ht] at h1 <;> simp [Option.bind_eq_some_iff] at h1
    by_cases hc : ∃ d, c = .component d
    · obtain ⟨d', rfl⟩ := key.1 hc
      obtain ⟨d, rfl⟩ := hc
      simpa [XC.notComponent, sizeCons] using ih
    · have hc' := mt key.2 hc
      have e1 : XC.notComponent c = true := by
        cases c <;> first | rfl | exact absurd ⟨_, rfl⟩ hc
      have e2 : sizeCons (ac :: rest) = ac :: sizeCons rest := by
        cases ac <;> first | rfl | exact absurd ⟨_, rfl⟩ hc'
      rw [e2, List.filter_cons_of_pos e1]
      rw [mapAll, List.mapM_cons, h1]
      rw [mapAll] at ih
      rw [ih]
      rfl

/-! ## All numbers -/

theorem actual_actual : ∀ t : NTy, t.actual.actual = t.actual
  | .ref _ _ t _ => actual_actual t
  | .int _ | .real _ | .bool _ | .null _ | .enum _ _ | .octets _ | .bits _ | .str _ | .oid _ | .seq _ _ | .seqOf _ _ | .choice _ _ => rfl

theorem mapVal_actual : ∀ (t : NTy) (v : VN), mapVal t v = mapVal t.actual v
  | .ref _ _ t _, v => by rw [mapVal]; exact mapVal_actual t v
  | .int _, _ | .real _, _ | .bool _, _ | .null _, _ | .enum _ _, _ | .octets _, _ | .bits _, _ | .str _, _ | .oid _, _ | .seq _ _, _ | .seqOf _ _, _
  | .choice _ _, _ => rfl

/-- The translation of a constraint looks at the type behind references. -/
theorem mapCon_actual (t : NTy) (c : XC) : mapCon t c = mapCon t.actual c := by
  induction c using XC.rec (motive_2 := fun _ => True) <;> (try trivial) <;>
    simp_all only [mapCon, actual_actual, singleCon, intOf, dblOf, mapVal_actual t]

theorem mapCon_same {t u : NTy} (h : t.actual = u.actual) (c : XC) : mapCon t c = mapCon u c := by
  rw [mapCon_actual t, mapCon_actual u, h]

theorem mapAll_same {t u : NTy} (h : t.actual = u.actual) (cs : List XC) : mapAll t cs = mapAll u cs := by
  have : mapCon t = mapCon u := funext (mapCon_same h)
  rw [mapAll, mapAll, this]

theorem mapAll_append {t : NTy} : ∀ {cs ds : List XC} {acs ads : List AC}, mapAll t cs = some acs → mapAll t ds = some ads →
    mapAll t (cs ++ ds) = some (acs ++ ads)
  | [], ds, acs, ads, h, hd => by
    rw [mapAll_nil] at h
    cases h
    exact hd
  | c :: cs, ds, acs, ads, h, hd => by
    obtain ⟨ac, rest, h1, h2, rfl⟩ := mapAll_cons h
    have ih := mapAll_append h2 hd
    rw [mapAll] at ih
    rw [List.cons_append, mapAll, List.mapM_cons, h1, ih]
    rfl

theorem sizeCons_append : ∀ (a b : List AC), sizeCons (a ++ b) = sizeCons a ++ sizeCons b
  | [], b => rfl
  | x :: a, b => by
    cases x <;> simp [sizeCons, sizeCons_append a b]

/-- Where `sz` and the constraints of references come from. -/
def SizeFrom (t : NTy) (ex : List XC) (sz : Option (Nat × Nat)) : Prop :=
  (ex = [] ∧ sz = none) ∨ ∃ acs, mapAll t (t.chain ++ ex) = some acs ∧ sizeOfKind acs t.actual = some sz

/-- The effective size, computed from the constraints. -/
theorem size_from {t : NTy} {ex : List XC} {ax acs : List AC} {sz : Option (Nat × Nat)} {f : List AC → Option (Nat × Nat)} {r : Nat × Nat}
    (hs : SizeFrom t ex sz) (h1 : mapAll t t.chain = some acs) (hx : mapAll t ex = some ax) (hf : f acs = some r)
    (hk : ∀ l z, sizeOfKind l t.actual = some z → ∃ p, f l = some p ∧ z = some p) : f (acs ++ ax) = some (effLo sz r.1, effHi sz r.2) := by
  rcases hs with ⟨rfl, rfl⟩ | ⟨l, h2, h3⟩
  · rw [mapAll_nil] at hx
    cases hx
    rw [List.append_nil, hf]
    rfl
  · rw [mapAll_append h1 hx] at h2
    cases h2
    obtain ⟨p, h4, rfl⟩ := hk _ _ h3
    rw [h4]
    rfl

theorem sizeMinMax_pair {r : Option Rng} {a b : Nat} (h : sizeMinMax r = some (a, b)) : r = some (.concrete a b) := sizeMinMax_some h

mutual
theorem compile_computed_in (slim : Bool) : ∀ (t : NTy) (w : List XC) (ct : CTy) (ex : List XC) (ax : List AC) (sz : Option (Nat × Nat)),
    compile slim w t = some ct → t.OrdinaryIn ex → mapAll t ex = some ax → SizeFrom t ex sz → ct.CountedIn sz → ComputedIn sz ax ct
  | .int cs, w, ct, ex, ax, sz, h, ho, hx, hs, hn => by
    rw [compile] at h
    simp only [Option.bind_eq_bind, Option.bind_eq_some_iff, Option.some.injEq] at h
    obtain ⟨acs, h1, r, h2, rfl⟩ := h
    rw [ComputedIn]
    refine ⟨⟨r, slim, h2, rfl⟩, ?_⟩
    have hr : ∃ r, intRangeOf (acs ++ ax) = some r := by
      rcases hs with ⟨rfl, rfl⟩ | ⟨l, h3, h4⟩
      · rw [mapAll_nil] at hx
        cases hx
        exact ⟨r, by rw [List.append_nil, h2]⟩
      · have e := mapAll_append h1 hx
        rw [NTy.chain, e] at h3
        cases h3
        simp only [NTy.actual, sizeOfKind, Option.map_eq_some_iff] at h4
        obtain ⟨r, h4, _⟩ := h4
        exact ⟨r, h4⟩
    obtain ⟨r', hr⟩ := hr
    rw [intRangeOf, Option.bind_eq_some_iff] at hr
    obtain ⟨xs, h3, h4⟩ := hr
    refine ⟨xs, r', h3, h4, ?_⟩
    rw [NTy.OrdinaryIn] at ho
    refine serial_cons (fun c ac l hc hq h5 h6 => ?_) (fun c ac l hc hq h5 h6 => trivial) (mapAll_append h1 hx) h3 ho
    cases ac <;> simp [intLeaf] at h6
    subst h6
    exact mapCon_range hc h5 hq
  | .real cs, w, ct, ex, ax, sz, h, ho, hx, hs, hn => by
    rw [compile] at h
    simp only [Option.bind_eq_bind, Option.bind_eq_some_iff, Option.some.injEq] at h
    obtain ⟨acs, h1, rfl⟩ := h
    rw [NTy.OrdinaryIn] at ho
    rw [ComputedIn]
    exact cons_some (fun c ac hc h => real_leaf hc h) (mapAll_append h1 hx) ho
  | .bool cs, w, ct, ex, ax, sz, h, ho, hx, hs, hn => by
    rw [compile] at h
    simp only [Option.bind_eq_bind, Option.bind_eq_some_iff, Option.some.injEq] at h
    obtain ⟨acs, h1, rfl⟩ := h
    simp only [ComputedIn]
  | .null cs, w, ct, ex, ax, sz, h, ho, hx, hs, hn => by
    rw [compile] at h
    split at h <;> simp at h
    subst h
    simp only [ComputedIn]
  | .enum items cs, w, ct, ex, ax, sz, h, ho, hx, hs, hn => by
    rw [compile] at h
    simp only [Option.bind_eq_bind, Option.bind_eq_some_iff, Option.some.injEq] at h
    obtain ⟨acs, h1, rfl⟩ := h
    rw [NTy.OrdinaryIn] at ho
    rw [ComputedIn]
    exact cons_some (fun c ac hc h => enum_leaf hc h) (mapAll_append h1 hx) ho
  | .octets cs, w, ct, ex, ax, sz, h, ho, hx, hs, hn => by
    rw [compile] at h
    simp only [Option.bind_eq_bind, Option.bind_eq_some_iff, Option.some.injEq] at h
    obtain ⟨acs, h1, r, h2, rfl⟩ := h
    have h2 := size_from hs h1 hx h2 (fun l z hl => by
      simp only [NTy.actual, sizeOfKind, Option.map_eq_some_iff] at hl
      obtain ⟨p, h, e⟩ := hl
      exact ⟨p, h, e.symm⟩)
    simp only [octetsSize, Option.bind_eq_bind, Option.bind_eq_some_iff] at h2
    obtain ⟨xs, h3, h4⟩ := h2
    rw [NTy.OrdinaryIn] at ho
    rw [ComputedIn]
    rw [CTy.CountedIn] at hn
    have := sizes_ok (fun ac l h => octet_size h) (mapAll_append h1 hx) h3 ho
    exact ⟨xs, h3, sizeMinMax_pair h4, this.1, this.2, hn⟩
  | .bits cs, w, ct, ex, ax, sz, h, ho, hx, hs, hn => by
    rw [compile] at h
    simp only [Option.bind_eq_bind, Option.bind_eq_some_iff, Option.some.injEq] at h
    obtain ⟨acs, h1, r, h2, rfl⟩ := h
    have h2 := size_from hs h1 hx h2 (fun l z hl => by
      simp only [NTy.actual, sizeOfKind, Option.map_eq_some_iff] at hl
      obtain ⟨p, h, e⟩ := hl
      exact ⟨p, h, e.symm⟩)
    simp only [bitsSize, Option.bind_eq_bind, Option.bind_eq_some_iff] at h2
    obtain ⟨xs, h3, h4⟩ := h2
    rw [NTy.OrdinaryIn] at ho
    rw [ComputedIn]
    rw [CTy.CountedIn] at hn
    have := sizes_ok (fun ac l h => bit_size h) (mapAll_append h1 hx) h3 ho
    exact ⟨xs, h3, sizeMinMax_pair h4, this.1, this.2, hn⟩
  | .str cs, w, ct, ex, ax, sz, h, ho, hx, hs, hn => by
    rw [compile] at h
    simp only [Option.bind_eq_bind, Option.bind_eq_some_iff, Option.some.injEq] at h
    obtain ⟨acs, h1, r, h2, al, h5, rfl⟩ := h
    have h2 := size_from hs h1 hx h2 (fun l z hl => by
      simp only [NTy.actual, sizeOfKind, Option.bind_eq_bind, Option.bind_eq_some_iff, Option.some.injEq] at hl
      obtain ⟨p, h, _, _, e⟩ := hl
      exact ⟨p, h, e.symm⟩)
    simp only [strSize, Option.bind_eq_bind, Option.bind_eq_some_iff] at h2
    obtain ⟨xs, h3, h4⟩ := h2
    have hal : ∃ l, strChars (acs ++ ax) = some l := by
      rcases hs with ⟨rfl, rfl⟩ | ⟨l, h6, h7⟩
      · rw [mapAll_nil] at hx
        cases hx
        exact ⟨al, by rw [List.append_nil, h5]⟩
      · have e := mapAll_append h1 hx
        rw [NTy.chain, e] at h6
        cases h6
        simp only [NTy.actual, sizeOfKind, Option.bind_eq_bind, Option.bind_eq_some_iff] at h7
        obtain ⟨_, _, l, h8, _⟩ := h7
        exact ⟨l, h8⟩
    obtain ⟨l, hal⟩ := hal
    simp only [strChars, Option.bind_eq_bind, Option.bind_eq_some_iff, Option.some.injEq] at hal
    obtain ⟨ys, h6, chars, h7, rfl⟩ := hal
    rw [h3] at h6
    cases h6
    rw [NTy.OrdinaryIn] at ho
    rw [ComputedIn]
    have := strs_ok (mapAll_append h1 hx) h3 ho
    exact ⟨h5, xs, chars, h3, sizeMinMax_pair h4, this.1, this.2, h7⟩
  | .oid cs, w, ct, ex, ax, sz, h, ho, hx, hs, hn => by
    rw [compile] at h
    simp only [Option.bind_eq_bind, Option.bind_eq_some_iff, Option.some.injEq] at h
    obtain ⟨acs, h1, rfl⟩ := h
    simp only [ComputedIn]
  | .seq fs cs, w, ct, ex, ax, sz, h, ho, hx, hs, hn => by
    rw [compile] at h
    simp only [Option.bind_eq_bind, Option.bind_eq_some_iff, Option.some.injEq] at h
    obtain ⟨acs, h1, cfs, h2, rfl⟩ := h
    rw [NTy.OrdinaryIn] at ho
    obtain ⟨rfl, ho⟩ := ho
    rw [mapAll_nil] at hx
    cases hx
    rw [CTy.CountedIn] at hn
    rw [ComputedIn]
    exact ⟨rfl, compileFields_computed slim fs _ cfs h2 ho hn⟩
  | .seqOf t cs, w, ct, ex, ax, sz, h, ho, hx, hs, hn => by
    rw [compile] at h
    simp only [Option.bind_eq_bind, Option.bind_eq_some_iff, Option.some.injEq] at h
    obtain ⟨acs, h1, ce, h2, r, h3, rfl⟩ := h
    have h3 := size_from hs h1 hx h3 (fun l z hl => by
      simp only [NTy.actual, sizeOfKind, Option.map_eq_some_iff] at hl
      obtain ⟨p, h, e⟩ := hl
      exact ⟨p, h, e.symm⟩)
    rw [NTy.OrdinaryIn] at ho
    rw [CTy.CountedIn] at hn
    have hax : sizeCons ax = ax := by
      have h4 := mapAll_sizeCons hx
      rw [List.filter_eq_self.2 (fun c hc => ho.2.1 c hc), hx] at h4
      exact (Option.some.inj h4).symm
    simp only [seqOfSize, Option.bind_eq_bind, Option.bind_eq_some_iff, sizeCons_append, hax] at h3
    obtain ⟨xs, h4, h5⟩ := h3
    rw [ComputedIn]
    have := sizes_ok (fun ac l h => elem_size h) (mapAll_append (mapAll_sizeCons h1) hx) h4 ho.1
    exact ⟨⟨xs, h4, sizeMinMax_pair h5, this.1, this.2, hn.1⟩,
      compile_computed_in slim t _ ce [] [] none h2 ho.2.2 (mapAll_nil t) (.inl ⟨rfl, rfl⟩) hn.2⟩
  | .choice alts cs, w, ct, ex, ax, sz, h, ho, hx, hs, hn => by
    rw [compile] at h
    simp only [Option.bind_eq_bind, Option.bind_eq_some_iff] at h
    obtain ⟨acs, h1, calts, h2, h3⟩ := h
    split at h3 <;> simp at h3
    subst h3
    rw [NTy.OrdinaryIn] at ho
    obtain ⟨rfl, ho⟩ := ho
    rw [mapAll_nil] at hx
    cases hx
    rw [CTy.CountedIn] at hn
    rw [ComputedIn]
    exact ⟨rfl, compileAlts_computed slim alts _ calts h2 ho hn⟩
  | .ref md tas t cs, w, ct, ex, ax, sz, h, ho, hx, hs, hn => by
    rw [compile] at h
    simp only [Option.bind_eq_bind, Option.bind_eq_some_iff] at h
    obtain ⟨acs, h1, ce, h2, size, h3, h4⟩ := h
    split at h4 <;> simp at h4
    subst h4
    rw [NTy.OrdinaryIn] at ho
    rw [CTy.CountedIn] at hn
    rw [ComputedIn]
    have hact : (NTy.ref md tas t cs).actual = t.actual := rfl
    rw [mapAll_same hact] at h1 hx
    refine compile_computed_in slim t _ ce (cs ++ ex) (acs ++ ax) (sz.or size) h2 ho (mapAll_append h1 hx) ?_ hn
    have hsize : (cs = [] ∧ size = none) ∨ ∃ l, mapAll t (t.chain ++ cs) = some l ∧ sizeOfKind l t.actual = some size := by
      by_cases hc : cs = []
      · subst hc
        simp at h3
        exact .inl ⟨rfl, h3.symm⟩
      · rw [if_neg (by simpa using hc), refSize] at h3
        simp only [Option.bind_eq_bind, Option.bind_eq_some_iff] at h3
        obtain ⟨l, h5, h6⟩ := h3
        rw [mapAll_same hact] at h5
        exact .inr ⟨l, h5, h6⟩
    rcases hs with ⟨rfl, rfl⟩ | ⟨l, h5, h6⟩
    · rw [List.append_nil, Option.none_or]
      exact hsize
    · right
      rw [mapAll_same hact, NTy.chain, List.append_assoc] at h5
      refine ⟨l, h5, ?_⟩
      rw [hact] at h6
      rw [h6]
      cases sz with
      | some p => rfl
      | none =>
        rw [Option.none_or]
        rcases hsize with ⟨rfl, rfl⟩ | ⟨l', h7, h8⟩
        · rfl
        · cases hk : t.actual <;> rw [hk] at h6 h8 <;>
            simp [sizeOfKind, Option.bind_eq_some_iff] at h6 h8 <;> first | (exact congrArg some h8) | (obtain ⟨_, e⟩ := h8; exact congrArg some e) | skip
theorem compileFields_computed (slim : Bool) : ∀ (fs : NFields) (w : List XC) (cfs : CFields), compileFields slim w fs = some cfs → fs.Ordinary →
    cfs.Counted → ComputedFields cfs
  | .nil, w, cfs, h, ho, hn => by
    rw [compileFields] at h
    cases h
    simp only [ComputedFields]
  | .cons nm o t rest, w, cfs, h, ho, hn => by
    rw [compileFields] at h
    simp only [Option.bind_eq_bind, Option.bind_eq_some_iff, Option.some.injEq] at h
    obtain ⟨co, h1, ct, h2, r, h3, rfl⟩ := h
    rw [NFields.Ordinary] at ho
    rw [CFields.Counted] at hn
    exact ⟨compile_computed_in slim t _ ct [] [] none h2 ho.2.1 (mapAll_nil t) (.inl ⟨rfl, rfl⟩) hn.1,
      compileFields_computed slim rest w r h3 ho.2.2 hn.2⟩
theorem compileAlts_computed (slim : Bool) : ∀ (alts : NAlts) (w : List XC) (calts : CAlts), compileAlts slim w alts = some calts → alts.Ordinary →
    calts.Counted → ComputedAlts calts
  | .nil, w, calts, h, ho, hn => by
    rw [compileAlts] at h
    cases h
    simp only [ComputedAlts]
  | .cons nm t rest, w, calts, h, ho, hn => by
    rw [compileAlts] at h
    simp only [Option.bind_eq_bind, Option.bind_eq_some_iff, Option.some.injEq] at h
    obtain ⟨ct, h2, r, h3, rfl⟩ := h
    rw [NAlts.Ordinary] at ho
    rw [CAlts.Counted] at hn
    exact ⟨compile_computed_in slim t _ ct [] [] none h2 ho.1 (mapAll_nil t) (.inl ⟨rfl, rfl⟩) hn.1,
      compileAlts_computed slim rest w r h3 ho.2 hn.2⟩
end

theorem compile_computed (slim : Bool) (t : NTy) (w : List XC) (ct : CTy) (h : compile slim w t = some ct) (ho : t.Ordinary) (hn : ct.Counted) :
    Computed ct := compile_computed_in slim t w ct [] [] none h ho (mapAll_nil t) (.inl ⟨rfl, rfl⟩) hn

end Asn1
