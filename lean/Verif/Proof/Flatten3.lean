import Verif.Proof.Flatten2
/-!
What has a meaning and avoids what the compiler does not know of is accepted.
-/
namespace Asn1

theorem GEnv.actual_mono {P : GEnv} : ∀ {n m : Nat} {t : GTy} {s : Option String} {r : GTy × Option String}, n ≤ m →
    P.actual n t s = some r → P.actual m t s = some r
  | n, m, t, s, r, hm, h => by
    cases t with
    | ref md nm =>
      cases n with
      | zero => simp [GEnv.actual] at h
      | succ n =>
        cases m with
        | zero => omega
        | succ m =>
          simp only [GEnv.actual] at h ⊢
          split at h
          · rename_i t ht
            exact GEnv.actual_mono (by omega) h
          · cases h
    | _ => cases n <;> cases m <;> simpa [GEnv.actual] using h
termination_by n => n

theorem GEnv.Is.actual {P : GEnv} {t : GTy} {s : Option String} {k : GTy} {l : Option String} (h : P.Is t s k l) :
    ∃ n, P.actual n t s = some (k, l) := by
  induction h with
  | @this t src hn =>
    cases t with
    | ref => exact absurd trivial hn
    | _ => exact ⟨0, by simp [GEnv.actual]⟩
  | name h1 _ ih =>
    obtain ⟨n, hn⟩ := ih
    exact ⟨n + 1, by simp [GEnv.actual, h1, hn]⟩

/-- Enough steps for every element are enough for the list. -/
theorem optMapM_fuel {α β : Type} {f : Nat → α → Option β} (hm : ∀ n m a b, n ≤ m → f n a = some b → f m a = some b) :
    ∀ {l : List α}, (∀ a ∈ l, ∃ n b, f n a = some b) → ∃ n r, l.mapM (f n) = some r
  | [], _ => ⟨0, [], by simp⟩
  | a :: l, h => by
    obtain ⟨n, b, hb⟩ := h a (by simp)
    obtain ⟨n', r, hr⟩ := optMapM_fuel hm fun a' ha' => h a' (List.mem_cons_of_mem _ ha')
    refine ⟨max n n', b :: r, ?_⟩
    rw [List.mapM_cons, hm n (max n n') a b (by omega) hb,
      optMapM_congr (fun a b h => hm n' (max n n') a b (by omega) h) hr]
    rfl

theorem GEnv.mapType_mono {P : GEnv} : ∀ {n m : Nat} {t : GTy} {u : HTy}, n ≤ m →
    P.mapType n t = some u → P.mapType m t = some u
  | 0, _, _, _, _, h => by simp [GEnv.mapType] at h
  | n + 1, 0, _, _, hm, _ => by omega
  | n + 1, m + 1, t, u, hm, h => by
    have hpair : ∀ (c : String × GTy) (b : String × HTy), ((P.mapType n c.2).map fun u => (c.1, u)) = some b →
        ((P.mapType m c.2).map fun u => (c.1, u)) = some b := by
      intro c b hb
      simp only [Option.map_eq_some_iff] at hb ⊢
      obtain ⟨u, h1, h2⟩ := hb
      exact ⟨u, GEnv.mapType_mono (by omega) h1, h2⟩
    cases t with
    | seq cs =>
      simp only [GEnv.mapType] at h ⊢
      split at h
      · rename_i l hl
        rw [GEnv.children_mono (by omega) hl]
        simp only [Option.map_eq_some_iff] at h ⊢
        obtain ⟨r, h1, h2⟩ := h
        exact ⟨r, optMapM_congr hpair h1, h2⟩
      · cases h
    | seqOf c =>
      simp only [GEnv.mapType, Option.map_eq_some_iff] at h ⊢
      obtain ⟨u, h1, h2⟩ := h
      exact ⟨u, GEnv.mapType_mono (by omega) h1, h2⟩
    | choice alts =>
      simp only [GEnv.mapType, Option.map_eq_some_iff] at h ⊢
      obtain ⟨r, h1, h2⟩ := h
      exact ⟨r, optMapM_congr hpair h1, h2⟩
    | _ => simpa [GEnv.mapType] using h

theorem GEnv.mapValue_mono {P : GEnv} : ∀ {n m : Nat} {t : GTy} {v : GVal} {w : HVal}, n ≤ m →
    P.mapValue n t v = some w → P.mapValue m t v = some w
  | 0, _, _, _, _, _, h => by simp [GEnv.mapValue] at h
  | n + 1, 0, _, _, _, hm, _ => by omega
  | n + 1, m + 1, t, v, w, hm, h => by
    simp only [GEnv.mapValue] at h ⊢
    split at h
    · cases h
    · rename_i kind last ha
      rw [GEnv.actual_mono (by omega) ha]
      cases v with
      | list vs =>
        cases kind with
        | seqOf c =>
          simp only [Option.map_eq_some_iff] at h ⊢
          obtain ⟨r, h1, h2⟩ := h
          exact ⟨r, optMapM_congr (fun a b h => GEnv.mapValue_mono (by omega) h) h1, h2⟩
        | str ia5 => cases ia5 <;> exact h
        | _ => exact h
      | named fs =>
        cases kind with
        | seq cs =>
          simp only at h ⊢
          split at h
          · rename_i l hl
            rw [GEnv.children_mono (by omega) hl]
            simp only [Option.map_eq_some_iff] at h ⊢
            obtain ⟨r, h1, h2⟩ := h
            refine ⟨r, optMapM_congr ?_ h1, h2⟩
            intro a b hb
            split at hb
            · simp only [Option.map_eq_some_iff] at hb ⊢
              obtain ⟨z, h3, h4⟩ := hb
              exact ⟨z, GEnv.mapValue_mono (by omega) h3, h4⟩
            · cases hb
          · cases h
        | _ => exact h
      | chosen nm v =>
        cases kind with
        | choice alts =>
          simp only at h ⊢
          split at h
          · simp only [Option.map_eq_some_iff] at h ⊢
            obtain ⟨z, h3, h4⟩ := h
            exact ⟨z, GEnv.mapValue_mono (by omega) h3, h4⟩
          · cases h
        | _ => exact h
      | _ => exact h

theorem GEnv.Expandable.accepted {P : GEnv} {t : GTy} (h : P.Expandable t) : ∃ n u, P.mapType n t = some u := by
  have hmono : ∀ (n m : Nat) (c : String × GTy) (b : String × HTy), n ≤ m → ((P.mapType n c.2).map fun u => (c.1, u)) = some b →
      ((P.mapType m c.2).map fun u => (c.1, u)) = some b := by
    intro n m c b hnm hb
    simp only [Option.map_eq_some_iff] at hb ⊢
    obtain ⟨u, h1, h2⟩ := hb
    exact ⟨u, GEnv.mapType_mono hnm h1, h2⟩
  induction h with
  | @seq cs l hd hc _ ih =>
    obtain ⟨n, l', hl'⟩ := hd.accepted
    have := (GEnv.children_sound hl').1.fun hc
    subst this
    obtain ⟨n', r, hr⟩ := optMapM_fuel (f := fun n (c : String × GTy) => (P.mapType n c.2).map fun u => (c.1, u)) hmono
      (l := l') (by
        intro p hp
        obtain ⟨n, u, hu⟩ := ih p hp
        exact ⟨n, (p.1, u), by simp [hu]⟩)
    refine ⟨max n n' + 1, .seq r, ?_⟩
    simp only [GEnv.mapType]
    rw [GEnv.children_mono (by omega) hl']
    simp only [Option.map_eq_some_iff]
    exact ⟨r, optMapM_congr (fun a b => hmono n' (max n n') a b (by omega)) hr, rfl⟩
  | seqOf _ ih =>
    obtain ⟨n, u, hu⟩ := ih
    exact ⟨n + 1, .seqOf u, by simp [GEnv.mapType, hu]⟩
  | @choice alts _ ih =>
    obtain ⟨n', r, hr⟩ := optMapM_fuel (f := fun n (c : String × GTy) => (P.mapType n c.2).map fun u => (c.1, u)) hmono
      (l := alts) (by
        intro p hp
        obtain ⟨n, u, hu⟩ := ih p hp
        exact ⟨n, (p.1, u), by simp [hu]⟩)
    refine ⟨n' + 1, .choice r, ?_⟩
    simp only [GEnv.mapType, Option.map_eq_some_iff]
    exact ⟨r, hr, rfl⟩
  | other => exact ⟨1, _, rfl⟩
  | bits => exact ⟨1, _, rfl⟩
  | str => exact ⟨1, _, rfl⟩
  | enum => exact ⟨1, _, rfl⟩
  | ref => exact ⟨1, _, rfl⟩

theorem find_fst_of_mem {α : Type} {l : List (String × α)} (hn : (l.map (·.1)).Nodup) {nm : String} {a : α} (h : (nm, a) ∈ l) :
    l.find? (fun c => c.1 == nm) = some (nm, a) := by
  cases hf : l.find? (fun c => c.1 == nm) with
  | none =>
    have := List.find?_eq_none.1 hf _ h
    simp at this
  | some c =>
    have h1 := find_fst_mem hf
    have h2 : c.1 = nm := by have := List.find?_some hf; exact eq_of_beq this
    have h3 := nodup_fst_eq hn h1 h
    rw [← h2, ← h3]

theorem specialChar_part {nm : String} (h : specialChar nm ≠ none) (md : String) : ∃ s, stringPart (.ref md nm) = some s := by
  simp only [stringPart]
  repeat' split
  · exact ⟨_, rfl⟩
  · exact ⟨_, rfl⟩
  · exact ⟨_, rfl⟩
  · exact ⟨_, rfl⟩
  · rename_i h1 h2 h3 h4
    simp [specialChar, h1, h2, h3, h4] at h

theorem flagsBits_some {names : List (String × Nat)} {size : Option (Nat × Nat)} {rs : List (String × String)} (hne : rs ≠ [])
    (hin : ∀ r ∈ rs, r.2 ∈ names.map (·.1)) : ∃ b, flagsBits names size (rs.map fun r => GVal.ref r.1 r.2) = some b := by
  obtain ⟨ps, hps⟩ := optMapM_of (f := bitPosition names) (l := rs.map fun r => GVal.ref r.1 r.2) (by
    intro v hv
    obtain ⟨r, hr, rfl⟩ := List.mem_map.1 hv
    simp only [bitPosition]
    cases hf : names.find? (fun p => p.1 == r.2) with
    | none =>
      obtain ⟨p, hp, hp'⟩ := List.mem_map.1 (hin r hr)
      have := List.find?_eq_none.1 hf _ hp
      simp [hp'] at this
    | some c => exact ⟨c.2, rfl⟩)
  have hl : ∃ l, lastPosition size ps = some l := by
    unfold lastPosition
    split
    · exact ⟨_, rfl⟩
    · have := (optMapM_get hps).1
      cases ps with
      | nil => simp at this; exact absurd this hne
      | cons p ps => exact ⟨_, rfl⟩
  obtain ⟨l, hl⟩ := hl
  exact ⟨(List.range (l + 1)).map fun i => ps.contains i, by simp [flagsBits, hps, hl]⟩

theorem mapValue_atom {P : GEnv} {t k : GTy} {v : GVal} (ha : v.Atom) (hk : P.IsKind t k) : ∃ n w, P.mapValue n t v = some w := by
  obtain ⟨l, hk⟩ := hk
  obtain ⟨n, hn⟩ := hk.actual
  refine ⟨n + 1, ?_⟩
  simp only [GEnv.mapValue, hn]
  cases v with
  | lit => exact ⟨_, rfl⟩
  | bits => exact ⟨_, rfl⟩
  | str => exact ⟨_, rfl⟩
  | ref md nm =>
    simp only
    split
    · exact ⟨_, rfl⟩
    · exact ⟨_, rfl⟩
  | _ => exact absurd ha id

/-- What means something and avoids what the compiler does not know of is accepted. -/
theorem GEnv.Means.accepted {P : GEnv} {t : GTy} {v : GVal} {x : GMean} (h : P.Means t v x) :
    P.Avoids t v → ∃ n w, P.mapValue n t v = some w := by
  induction h with
  | lit hk => exact fun _ => mapValue_atom trivial hk
  | bits hk => exact fun _ => mapValue_atom trivial hk
  | str hk => exact fun _ => mapValue_atom trivial hk
  | item hk => exact fun _ => mapValue_atom trivial hk
  | name hk => exact fun _ => mapValue_atom trivial hk
  | @flags t names size rs f hk hne hn hin hf =>
    intro _
    obtain ⟨l, hk⟩ := hk
    obtain ⟨n, hn⟩ := hk.actual
    obtain ⟨b, hb⟩ := flagsBits_some (size := size) hne hin
    exact ⟨n + 1, .bits b, by simp only [GEnv.mapValue, hn, hb, Option.map_some]⟩
  | noFlags hk =>
    intro ha
    cases ha with
    | atom ha => exact absurd ha id
    | noElements h2 => cases hk.fun h2
    | noComponents h2 => cases hk.fun h2
  | @parts t ia5 vs ss isChar hk hne hlen _ _ _ =>
    intro ha
    cases ha with
    | atom ha => exact absurd ha id
    | flags h2 => cases hk.fun h2
    | seqOf h2 => cases hk.fun h2
    | parts h2 hall =>
      cases hk.fun h2
      obtain ⟨l, hk⟩ := hk
      obtain ⟨n, hn⟩ := hk.actual
      obtain ⟨r, hr⟩ := optMapM_of (f := stringPart) (l := vs) (by
        intro v hv
        rcases hall v hv with ⟨s, rfl⟩ | ⟨md, nm, rfl, hs⟩
        · exact ⟨s, rfl⟩
        · exact specialChar_part hs md)
      exact ⟨n + 1, .str r.flatten, by simp only [GEnv.mapValue, hn, hr, Option.map_some]⟩
  | @seqOf t c vs xs hk hne hlen _ ih =>
    intro ha
    cases ha with
    | atom ha => exact absurd ha id
    | flags h2 => cases hk.fun h2
    | parts h2 => cases hk.fun h2
    | seqOf h2 hall =>
      cases hk.fun h2
      obtain ⟨l, hk⟩ := hk
      obtain ⟨n, hn⟩ := hk.actual
      obtain ⟨n', r, hr⟩ := optMapM_fuel (f := fun n v => P.mapValue n c v) (fun _ _ _ _ h => GEnv.mapValue_mono h) (l := vs) (by
        intro v hv
        obtain ⟨i, hi, rfl⟩ := List.mem_iff_getElem.1 hv
        have hi' : i < xs.length := by omega
        exact ih i vs[i] xs[i] (by simp [hi]) (by simp [hi']) (hall _ hv))
      refine ⟨max n n' + 1, .list r, ?_⟩
      have h1 : vs.mapM (P.mapValue (max n n') c) = some r :=
        optMapM_congr (fun a b h => GEnv.mapValue_mono (by omega) h) hr
      simp only [GEnv.mapValue, GEnv.actual_mono (show n ≤ max n n' by omega) hn, h1, Option.map_some]
  | noElements hk =>
    intro _
    obtain ⟨l, hk⟩ := hk
    obtain ⟨n, hn⟩ := hk.actual
    exact ⟨n + 1, .list [], by simp only [GEnv.mapValue, hn]⟩
  | noComponents hk =>
    intro _
    obtain ⟨l, hk⟩ := hk
    obtain ⟨n, hn⟩ := hk.actual
    exact ⟨n + 1, .named [], by simp only [GEnv.mapValue, hn]⟩
  | @seq t cs l fs τ xs hk hc hn hne hlen hτ _ ih =>
    intro ha
    cases ha with
    | atom ha => exact absurd ha id
    | seq h2 hd hc' hall =>
      cases hk.fun h2
      cases hc.fun hc'
      obtain ⟨last, hk⟩ := hk
      obtain ⟨n, hn'⟩ := hk.actual
      obtain ⟨m, l', hl'⟩ := hd.accepted
      have := (GEnv.children_sound hl').1.fun hc
      subst this
      let g := fun n (p : String × GVal) => match l'.find? fun (c : String × GTy) => c.1 == p.1 with
            | some c => (GEnv.mapValue P n c.2 p.2).map fun w => (p.1, w)
            | none => none
      have hg : ∀ n m a b, n ≤ m → g n a = some b → g m a = some b := by
        intro n m a b hnm hb
        simp only [g] at hb ⊢
        split at hb
        · simp only [Option.map_eq_some_iff] at hb ⊢
          obtain ⟨z, h3, h4⟩ := hb
          exact ⟨z, GEnv.mapValue_mono hnm h3, h4⟩
        · cases hb
      obtain ⟨n', r, hr⟩ := optMapM_fuel hg (l := fs) (by
        intro p hp
        obtain ⟨i, hi, rfl⟩ := List.mem_iff_getElem.1 hp
        have hi' : i < xs.length := by omega
        have h3 := hτ i fs[i] (by simp [hi])
        obtain ⟨n, w, hw⟩ := ih i fs[i] xs[i] (by simp [hi]) (by simp [hi']) (hall _ hp _ h3)
        exact ⟨n, (fs[i].1, w), by simp only [g, find_fst_of_mem hn h3, hw, Option.map_some]⟩)
      refine ⟨max n (max m n') + 1, .named r, ?_⟩
      have h1 : fs.mapM (g (max n (max m n'))) = some r := optMapM_congr (fun a b h => hg _ _ a b (by omega) h) hr
      simp only [GEnv.mapValue, GEnv.actual_mono (show n ≤ max n (max m n') by omega) hn',
        GEnv.children_mono (show m ≤ max n (max m n') by omega) hl']
      exact Option.map_eq_some_iff.2 ⟨r, h1, rfl⟩
  | @choice t a alts nm v x hk hn hm _ ih =>
    intro ha
    cases ha with
    | atom ha => exact absurd ha id
    | choice h2 hall =>
      cases hk.fun h2
      obtain ⟨last, hk⟩ := hk
      obtain ⟨n, hn'⟩ := hk.actual
      obtain ⟨n', w, hw⟩ := ih (hall a hm)
      refine ⟨max n n' + 1, .chosen nm w, ?_⟩
      simp only [GEnv.mapValue, GEnv.actual_mono (show n ≤ max n n' by omega) hn', find_fst_of_mem hn hm,
        GEnv.mapValue_mono (show n' ≤ max n n' by omega) hw, Option.map_some]

theorem GEnv.mapRoot_accepted {P : GEnv} (ht : ∀ p ∈ P.types, P.Expandable p.2)
    (hv : ∀ p ∈ P.values, P.Expandable p.2.1 ∧ P.Avoids p.2.1 p.2.2 ∧ ∃ x, P.Means p.2.1 p.2.2 x) :
    ∃ n H, P.mapRoot n = some H := by
  let f := fun n (p : (String × String) × GTy) => (P.mapType n p.2).map fun u => (p.1, u)
  have hf : ∀ n m a b, n ≤ m → f n a = some b → f m a = some b := by
    intro n m a b hnm hb
    simp only [f, Option.map_eq_some_iff] at hb ⊢
    obtain ⟨u, h1, h2⟩ := hb
    exact ⟨u, GEnv.mapType_mono hnm h1, h2⟩
  let g := fun n (p : (String × String) × (GTy × GVal)) => match P.mapType n p.2.1, P.mapValue n p.2.1 p.2.2 with
    | some u, some w => some (p.1, (u, w))
    | _, _ => none
  have hg : ∀ n m a b, n ≤ m → g n a = some b → g m a = some b := by
    intro n m a b hnm hb
    simp only [g] at hb ⊢
    split at hb
    · rename_i u w hu hw
      rw [GEnv.mapType_mono hnm hu, GEnv.mapValue_mono hnm hw]
      exact hb
    · cases hb
  obtain ⟨n, ts, hts⟩ := optMapM_fuel hf (l := P.types) (by
    intro p hp
    obtain ⟨n, u, hu⟩ := (ht p hp).accepted
    exact ⟨n, (p.1, u), by simp only [f, hu, Option.map_some]⟩)
  obtain ⟨m, vs, hvs⟩ := optMapM_fuel hg (l := P.values) (by
    intro p hp
    obtain ⟨h1, h2, x, h3⟩ := hv p hp
    obtain ⟨n, u, hu⟩ := h1.accepted
    obtain ⟨m, w, hw⟩ := h3.accepted h2
    refine ⟨max n m, (p.1, (u, w)), ?_⟩
    simp only [g, GEnv.mapType_mono (show n ≤ max n m by omega) hu, GEnv.mapValue_mono (show m ≤ max n m by omega) hw])
  refine ⟨max n m, ⟨ts, vs⟩, ?_⟩
  have h1 : P.types.mapM (f (max n m)) = some ts := optMapM_congr (fun a b h => hf _ _ a b (by omega) h) hts
  have h2 : P.values.mapM (g (max n m)) = some vs := optMapM_congr (fun a b h => hg _ _ a b (by omega) h) hvs
  exact Option.bind_eq_some_iff.2 ⟨ts, h1, Option.bind_eq_some_iff.2 ⟨vs, h2, rfl⟩⟩

end Asn1
