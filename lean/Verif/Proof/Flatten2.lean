import Verif.Proof.Flatten
/-!
The mapped values mean what the written ones mean.
-/
namespace Asn1

theorem nodup_fst_eq {α : Type} {l : List (String × α)} (h : (l.map (·.1)).Nodup) {nm : String} {a b : α}
    (ha : (nm, a) ∈ l) (hb : (nm, b) ∈ l) : a = b := by
  induction l with
  | nil => cases ha
  | cons p l ih =>
    simp only [List.map_cons, List.nodup_cons] at h
    rcases List.mem_cons.1 ha with h1 | h1 <;> rcases List.mem_cons.1 hb with h2 | h2
    · rw [← h1] at h2; cases h2; rfl
    · exact absurd (List.mem_map.2 ⟨_, h2, by rw [← h1]⟩) h.1
    · exact absurd (List.mem_map.2 ⟨_, h1, by rw [← h2]⟩) h.1
    · exact ih h.2 h1 h2

theorem find_fst_mem {α : Type} {l : List (String × α)} {nm : String} {c : String × α}
    (h : l.find? (fun c => c.1 == nm) = some c) : (nm, c.2) ∈ l := by
  have h1 := List.mem_of_find?_eq_some h
  have h2 : c.1 = nm := by have := List.find?_some h; exact eq_of_beq this
  rw [← h2]; exact h1

theorem maxPosition_le {ps : List Nat} {m : Nat} (h : maxPosition ps = some m) : ∀ p ∈ ps, p ≤ m := by
  have key : ∀ (l : List Nat) (a : Nat), a ≤ l.foldl max a ∧ ∀ p ∈ l, p ≤ l.foldl max a := by
    intro l
    induction l with
    | nil => simp
    | cons b l ih =>
      intro a
      obtain ⟨h1, h2⟩ := ih (max a b)
      simp only [List.foldl_cons]
      refine ⟨by omega, ?_⟩
      intro p hp
      rcases List.mem_cons.1 hp with rfl | hp
      · omega
      · exact h2 p hp
  cases ps with
  | nil => simp [maxPosition] at h
  | cons a ps =>
    simp [maxPosition] at h; subst h
    intro p hp
    rcases List.mem_cons.1 hp with rfl | hp
    · exact (key ps p).1
    · exact (key ps a).2 p hp

/-- The positions are those of the named bits. -/
theorem positions_spec {names : List (String × Nat)} (hn : (names.map (·.1)).Nodup) :
    ∀ {rs : List (String × String)} {ps : List Nat},
    (rs.map fun r => GVal.ref r.1 r.2).mapM (bitPosition names) = some ps →
    ∀ i, i ∈ ps ↔ ∃ r ∈ rs, (r.2, i) ∈ names
  | [], ps, h => by simp at h; subst h; simp
  | r :: rs, ps, h => by
    rw [List.map_cons] at h
    obtain ⟨p, ps', h1, h2, rfl⟩ := optMapM_cons h
    simp only [bitPosition, Option.map_eq_some_iff] at h1
    obtain ⟨c, h3, rfl⟩ := h1
    have h4 := find_fst_mem h3
    have ih := positions_spec hn h2
    intro i
    simp only [List.mem_cons, ih i, exists_eq_or_imp]
    constructor
    · rintro (rfl | h5)
      · exact Or.inl h4
      · exact Or.inr h5
    · rintro (h5 | h5)
      · exact Or.inl (nodup_fst_eq hn h5 h4)
      · exact Or.inr h5

theorem flagsBits_mean {names : List (String × Nat)} {size : Option (Nat × Nat)} (hfit : (GTy.bits names size).Fits)
    (hn : (names.map (·.1)).Nodup) {rs : List (String × String)} {b : List Bool} {f : Nat → Bool}
    (hf : ∀ i, f i = true ↔ ∃ r ∈ rs, (r.2, i) ∈ names)
    (h : flagsBits names size (rs.map fun r => GVal.ref r.1 r.2) = some b) : (fun i => b.getD i false) = f := by
  simp only [flagsBits, Option.bind_eq_bind, Option.bind_eq_some_iff] at h
  obtain ⟨ps, h1, last, h2, h3⟩ := h
  cases h3
  have hp := positions_spec hn h1
  have hle : ∀ p ∈ ps, p ≤ last := by
    intro p hps
    cases hfit with
    | bits => exact maxPosition_le (by simpa [lastPosition] using h2) p hps
    | @sized _ a b' hb hall =>
      obtain ⟨r, -, hr⟩ := (hp p).1 hps
      have := hall _ hr
      simp only [lastPosition, Option.some.injEq] at h2
      simp only at this
      subst h2
      rw [show b' + (2 ^ 32 - 1) = (b' - 1) + 2 ^ 32 by omega, Nat.add_mod_right, Nat.mod_eq_of_lt (by omega)]
      omega
  funext i
  rw [Bool.eq_iff_iff, hf i, ← hp i]
  simp only [List.getD_eq_getElem?_getD, List.getElem?_map]
  by_cases hi : i < last + 1
  · simp [List.getElem?_range hi]
  · rw [List.getElem?_eq_none (by simp; omega)]
    simp only [Option.map_none, Option.getD_none, Bool.false_eq_true, false_iff]
    intro hm
    have := hle i hm
    omega

theorem stringPart_special {md nm : String} {s : List Nat} (h : stringPart (.ref md nm) = some s) :
    ∃ c, specialChar nm = some c ∧ s = [c] := by
  simp only [stringPart] at h
  split at h
  · cases h; subst nm; exact ⟨13, by decide, rfl⟩
  · split at h
    · cases h; subst nm; exact ⟨10, by decide, rfl⟩
    · split at h
      · cases h; subst nm; exact ⟨9, by decide, rfl⟩
      · split at h
        · cases h; subst nm; exact ⟨0, by decide, rfl⟩
        · cases h

theorem GEnv.Means.part {P : GEnv} (hS : P.SpecialFree) {t : GTy} {v : GVal} {s s' : List Nat} (h : P.Means t v (.str s))
    (hp : stringPart v = some s') : s' = s := by
  cases v with
  | str s0 => cases h; simp [stringPart] at hp; exact hp.symm
  | ref md nm =>
    obtain ⟨c, hc, rfl⟩ := stringPart_special hp
    cases h with
    | name _ h2 => rw [hS md nm (by simp [hc])] at h2; cases h2
  | _ => simp [stringPart] at hp

theorem mapM_pairs {n : Nat} {P : GEnv} {l : List (String × GTy)} {r : List (String × HTy)}
    (h : l.mapM (fun (c : String × GTy) => (P.mapType n c.2).map fun u => (c.1, u)) = some r) :
    r.map (·.1) = l.map (·.1) ∧ ∀ nm t, (nm, t) ∈ l → ∃ u, (nm, u) ∈ r ∧ P.mapType n t = some u := by
  induction l generalizing r with
  | nil => simp at h; subst h; simp
  | cons c l ih =>
    obtain ⟨b, r', h1, h2, rfl⟩ := optMapM_cons h
    simp only [Option.map_eq_some_iff] at h1
    obtain ⟨u, h3, rfl⟩ := h1
    obtain ⟨h4, h5⟩ := ih h2
    refine ⟨by simp [h4], ?_⟩
    intro nm t hm
    rcases List.mem_cons.1 hm with rfl | hm
    · exact ⟨u, by simp, h3⟩
    · obtain ⟨u', h6, h7⟩ := h5 nm t hm
      exact ⟨u', List.mem_cons_of_mem _ h6, h7⟩

/-- What the mapped value means is what the written value means. -/
theorem GEnv.Means.mapped {P : GEnv} {n : Nat} {H : HEnv} (hH : P.mapRoot n = some H) (hF : P.Fits) (hE : P.EnumsLocal)
    (hS : P.SpecialFree) {t : GTy} {v : GVal} {x : GMean} (h : P.Means t v x) :
    ∀ {m m' : Nat} {w : HVal} {u : HTy}, t.Fits → P.mapValue m t v = some w → P.mapType m' t = some u → H.Means u w x := by
  induction h with
  | @lit t k a hk =>
    intro m m' w u _ hw hu
    cases m with
    | zero => simp [GEnv.mapValue] at hw
    | succ m =>
      simp only [GEnv.mapValue] at hw
      split at hw
      · cases hw
      · simp at hw; subst hw
        obtain ⟨j, k', h1, h2⟩ := hk.mapped hH hu
        simp [GEnv.mapType] at h1; subst h1
        exact .lit h2
  | @bits t names size b hk =>
    intro m m' w u _ hw hu
    cases m with
    | zero => simp [GEnv.mapValue] at hw
    | succ m =>
      simp only [GEnv.mapValue] at hw
      split at hw
      · cases hw
      · simp at hw; subst hw
        obtain ⟨j, k', h1, h2⟩ := hk.mapped hH hu
        simp [GEnv.mapType] at h1; subst h1
        exact .bits h2
  | @flags t names size rs f hk hne hn hin hf =>
    intro m m' w u hfit hw hu
    cases m with
    | zero => simp [GEnv.mapValue] at hw
    | succ m =>
      simp only [GEnv.mapValue] at hw
      split at hw
      · cases hw
      · rename_i kind last ha
        have hkind : kind = .bits names size := GEnv.IsKind.fun ⟨_, GEnv.actual_is ha⟩ hk
        subst hkind
        simp only [Option.map_eq_some_iff] at hw
        obtain ⟨b, hb, rfl⟩ := hw
        obtain ⟨j, k', h1, h2⟩ := hk.mapped hH hu
        simp [GEnv.mapType] at h1; subst h1
        have hnames : names ≠ [] := by
          obtain ⟨r, rs', rfl⟩ := List.exists_cons_of_ne_nil hne
          have := hin r (by simp)
          rintro rfl; simp at this
        obtain ⟨last', hk'⟩ := hk
        have := flagsBits_mean (hk'.fits hF hfit) hn hf hb
        have h3 := HEnv.Means.bits (b := b) h2
        simp only [bitsMean, hnames, if_false] at h3
        rw [this] at h3
        exact h3
  | @noFlags t names size hk =>
    intro m m' w u _ hw hu
    cases m with
    | zero => simp [GEnv.mapValue] at hw
    | succ m =>
      simp only [GEnv.mapValue] at hw
      split at hw
      · cases hw
      · rename_i kind last ha
        have hkind : kind = .bits names size := GEnv.IsKind.fun ⟨_, GEnv.actual_is ha⟩ hk
        subst hkind
        simp at hw
  | @str t ia5 s hk =>
    intro m m' w u _ hw hu
    cases m with
    | zero => simp [GEnv.mapValue] at hw
    | succ m =>
      simp only [GEnv.mapValue] at hw
      split at hw
      · cases hw
      · simp at hw; subst hw
        obtain ⟨j, k', h1, h2⟩ := hk.mapped hH hu
        simp [GEnv.mapType] at h1; subst h1
        exact .str h2
  | @parts t ia5 vs ss isChar hk hne hlen hch hall _ =>
    intro m m' w u _ hw hu
    cases m with
    | zero => simp [GEnv.mapValue] at hw
    | succ m =>
      simp only [GEnv.mapValue] at hw
      split at hw
      · cases hw
      · rename_i kind last ha
        have hkind : kind = .str ia5 := GEnv.IsKind.fun ⟨_, GEnv.actual_is ha⟩ hk
        subst hkind
        cases ia5 with
        | false => simp at hw
        | true =>
          simp only [Option.map_eq_some_iff] at hw
          obtain ⟨l, hl, rfl⟩ := hw
          obtain ⟨j, k', h1, h2⟩ := hk.mapped hH hu
          simp [GEnv.mapType] at h1; subst h1
          obtain ⟨h3, h4⟩ := optMapM_get hl
          have : l = ss := by
            apply List.ext_getElem?
            intro i
            by_cases hi : i < l.length
            · have hi1 : i < vs.length := by omega
              have hi2 : i < ss.length := by omega
              have h5 := h4 i vs[i] l[i] (by simp [hi1]) (by simp [hi])
              have h7 : l[i] = ss[i] := by
                by_cases hcc : isChar i
                · obtain ⟨md, nm, c, h8, -, h9, h10⟩ := hch i vs[i] ss[i] hcc (by simp [hi1]) (by simp [hi2])
                  rw [h8] at h5
                  obtain ⟨c', h11, h12⟩ := stringPart_special h5
                  rw [h9] at h11; cases h11
                  rw [h12, h10]
                · exact GEnv.Means.part hS (hall i vs[i] ss[i] hcc (by simp [hi1]) (by simp [hi2])) h5
              rw [List.getElem?_eq_getElem hi, List.getElem?_eq_getElem hi2, h7]
            · rw [List.getElem?_eq_none (by omega), List.getElem?_eq_none (by omega)]
          subst this
          exact .str h2
  | @item t items md nm hk hi =>
    intro m m' w u _ hw hu
    cases m with
    | zero => simp [GEnv.mapValue] at hw
    | succ m =>
      simp only [GEnv.mapValue] at hw
      obtain ⟨j, k', h1, h2⟩ := hk.mapped hH hu
      simp [GEnv.mapType] at h1; subst h1
      split at hw
      · cases hw
      · split at hw <;> (cases hw; exact .item h2 hi)
  | @name t t' k v x md nm hk hv hno hsame _ ih =>
    intro m m' w u _ hw hu
    obtain ⟨u', w', h1, h2, h3⟩ := GEnv.mapRoot_values hH hv
    have h4 := ih (hF.2 _ (GEnv.value_mem hv)) h3 h2
    have h5 : ∀ items, H.IsKind u (.enum items) → nm ∉ items := by
      intro items hi
      exact hno items (hi.enum hH rfl none hu)
    have key : w = .ref md nm := by
      cases m with
      | zero => simp [GEnv.mapValue] at hw
      | succ m =>
        simp only [GEnv.mapValue] at hw
        split at hw
        · cases hw
        · rename_i kind last ha
          split at hw
          · rename_i items s
            cases hw
            have := hE md nm t' v items s hv (hsame _ _ (GEnv.actual_is ha))
            rw [this]
          · cases hw; rfl
    subst key
    exact .name h1 h5 h4
  | @seqOf t c vs xs hk hne hlen _ ih =>
    intro m m' w u hfit hw hu
    cases m with
    | zero => simp [GEnv.mapValue] at hw
    | succ m =>
      simp only [GEnv.mapValue] at hw
      split at hw
      · cases hw
      · rename_i kind last ha
        have hkind : kind = .seqOf c := GEnv.IsKind.fun ⟨_, GEnv.actual_is ha⟩ hk
        subst hkind
        simp only [Option.map_eq_some_iff] at hw
        obtain ⟨l, hl, rfl⟩ := hw
        obtain ⟨j, k', h1, h2⟩ := hk.mapped hH hu
        simp only [GEnv.mapType, Option.map_eq_some_iff] at h1
        obtain ⟨uc, h1, rfl⟩ := h1
        obtain ⟨h3, h4⟩ := optMapM_get hl
        have hc : c.Fits := by
          obtain ⟨l', hk'⟩ := hk
          have := hk'.fits hF hfit
          cases this; assumption
        refine .seqOf h2 (by omega) ?_
        intro i w x hw hx
        have hi : i < vs.length := by
          have := (List.getElem?_eq_some_iff.1 hw).1; omega
        exact ih i vs[i] x (by simp [hi]) hx hc (h4 i vs[i] w (by simp [hi]) hw) h1
  | @noElements t c hk =>
    intro m m' w u _ hw hu
    cases m with
    | zero => simp [GEnv.mapValue] at hw
    | succ m =>
      simp only [GEnv.mapValue] at hw
      split at hw
      · cases hw
      · rename_i kind last ha
        have hkind : kind = .seqOf c := GEnv.IsKind.fun ⟨_, GEnv.actual_is ha⟩ hk
        subst hkind
        simp at hw; subst hw
        obtain ⟨j, k', h1, h2⟩ := hk.mapped hH hu
        simp only [GEnv.mapType, Option.map_eq_some_iff] at h1
        obtain ⟨uc, h1, rfl⟩ := h1
        exact .seqOf h2 rfl (by simp)
  | @seq t cs l fs τ xs hk hc hn hne hlen hτ _ ih =>
    intro m m' w u hfit hw hu
    cases m with
    | zero => simp [GEnv.mapValue] at hw
    | succ m =>
      simp only [GEnv.mapValue] at hw
      split at hw
      · cases hw
      · rename_i kind last ha
        have hkind : kind = .seq cs := GEnv.IsKind.fun ⟨_, GEnv.actual_is ha⟩ hk
        subst hkind
        simp only at hw
        split at hw
        · rename_i l' hl'
          have hll := (GEnv.children_sound hl').1.fun hc
          subst hll
          simp only [Option.map_eq_some_iff] at hw
          obtain ⟨ws, hws, rfl⟩ := hw
          obtain ⟨j, k', h1, h2⟩ := hk.mapped hH hu
          simp only [GEnv.mapType] at h1
          split at h1
          · rename_i l2 hl2
            have hll := (GEnv.children_sound hl2).1.fun hc
            subst hll
            simp only [Option.map_eq_some_iff] at h1
            obtain ⟨us, hus, rfl⟩ := h1
            obtain ⟨h3, h4⟩ := mapM_pairs hus
            obtain ⟨h5, h6⟩ := optMapM_get hws
            have hfits : ∀ p ∈ l2, p.2.Fits := by
              obtain ⟨l', hk'⟩ := hk
              have := hk'.fits hF hfit
              cases this with
              | seq this => exact hc.fits hF this
            have hname : ws.map (·.1) = fs.map (·.1) := by
              apply List.ext_getElem?
              intro i
              by_cases hi : i < ws.length
              · have hi1 : i < fs.length := by omega
                have h7 := h6 i fs[i] ws[i] (by simp [hi1]) (by simp [hi])
                split at h7
                · simp only [Option.map_eq_some_iff] at h7
                  obtain ⟨z, -, h8⟩ := h7
                  simp [hi, hi1, ← h8]
                · cases h7
              · rw [List.getElem?_eq_none (by simp; omega), List.getElem?_eq_none (by simp; omega)]
            have hex : ∀ i, ∃ ui, ∀ p, fs[i]? = some p → (p.1, ui) ∈ us ∧ P.mapType j (τ i) = some ui := by
              intro i
              cases hp : fs[i]? with
              | none => exact ⟨.other 0, by simp⟩
              | some p =>
                obtain ⟨ui, h7, h8⟩ := h4 _ _ (hτ i p hp)
                exact ⟨ui, by intro p' hp'; cases hp'; exact ⟨h7, h8⟩⟩
            rw [← hname]
            have hpair : ∀ (i : Nat) q, ws[i]? = some q → ∃ p, fs[i]? = some p ∧ q.1 = p.1 ∧ P.mapValue m (τ i) p.2 = some q.2 := by
              intro i q hq
              have hi : i < fs.length := by
                have := (List.getElem?_eq_some_iff.1 hq).1; omega
              refine ⟨fs[i], by simp [hi], ?_⟩
              have h7 := h6 i fs[i] q (by simp [hi]) hq
              split at h7
              · rename_i c hcf
                simp only [Option.map_eq_some_iff] at h7
                obtain ⟨z, h8, rfl⟩ := h7
                have h9 := nodup_fst_eq hn (find_fst_mem hcf) (hτ i fs[i] (by simp [hi]))
                rw [← h9]
                exact ⟨rfl, h8⟩
              · cases h7
            refine .seq (τ := fun i => Classical.choose (hex i)) h2 (fun _ => by rw [h3]; exact hn) (by omega) ?_ ?_
            · intro i q hq
              obtain ⟨p, h7, h8, -⟩ := hpair i q hq
              rw [h8]
              exact (Classical.choose_spec (hex i) p h7).1
            · intro i q x hq hx
              obtain ⟨p, h7, h8, h9⟩ := hpair i q hq
              exact ih i p x h7 hx (hfits _ (hτ i p h7)) h9 (Classical.choose_spec (hex i) p h7).2
          · cases h1
        · cases hw
  | @noComponents t cs hk =>
    intro m m' w u _ hw hu
    cases m with
    | zero => simp [GEnv.mapValue] at hw
    | succ m =>
      simp only [GEnv.mapValue] at hw
      split at hw
      · cases hw
      · rename_i kind last ha
        have hkind : kind = .seq cs := GEnv.IsKind.fun ⟨_, GEnv.actual_is ha⟩ hk
        subst hkind
        simp at hw; subst hw
        obtain ⟨j, k', h1, h2⟩ := hk.mapped hH hu
        simp only [GEnv.mapType] at h1
        split at h1
        · simp only [Option.map_eq_some_iff] at h1
          obtain ⟨us, -, rfl⟩ := h1
          exact HEnv.Means.seq (fs := []) (xs := []) (τ := fun _ => .other 0) h2 (by simp) rfl (by simp) (by simp)
        · cases h1
  | @choice t a alts nm v x hk hn hm _ ih =>
    intro m m' w u hfit hw hu
    cases m with
    | zero => simp [GEnv.mapValue] at hw
    | succ m =>
      simp only [GEnv.mapValue] at hw
      split at hw
      · cases hw
      · rename_i kind last ha
        have hkind : kind = .choice alts := GEnv.IsKind.fun ⟨_, GEnv.actual_is ha⟩ hk
        subst hkind
        simp only at hw
        split at hw
        · rename_i c hcf
          simp only [Option.map_eq_some_iff] at hw
          obtain ⟨z, hz, rfl⟩ := hw
          obtain ⟨j, k', h1, h2⟩ := hk.mapped hH hu
          simp only [GEnv.mapType, Option.map_eq_some_iff] at h1
          obtain ⟨us, hus, rfl⟩ := h1
          obtain ⟨h3, h4⟩ := mapM_pairs hus
          obtain ⟨ua, h5, h6⟩ := h4 _ _ hm
          have h9 := nodup_fst_eq hn (find_fst_mem hcf) hm
          rw [h9] at hz
          have hfa : a.Fits := by
            obtain ⟨l', hk'⟩ := hk
            have := hk'.fits hF hfit
            cases this with
            | choice this => exact this _ _ hm
          exact .choice h2 (by rw [h3]; exact hn) h5 (ih hfa hz h6)
        · cases hw

/-! ## A value of the tree has one meaning -/

theorem HEnv.IsKind.fun {P : HEnv} {t k k' : HTy} (h : P.IsKind t k) (h' : P.IsKind t k') : k = k' := by
  induction h with
  | this hn =>
    cases h' with
    | this => rfl
    | name => exact absurd trivial hn
  | name h1 _ ih =>
    cases h' with
    | this hn => exact absurd trivial hn
    | name h2 h3 => rw [h1] at h2; cases h2; exact ih h3

theorem HEnv.Means.fun {P : HEnv} {t : HTy} {v : HVal} {x : GMean} (h : P.Means t v x) : ∀ {y : GMean}, P.Means t v y → x = y := by
  induction h with
  | lit h1 => intro y h'; cases h'; rfl
  | bits h1 =>
    intro y h'
    cases h' with
    | bits h2 => cases h1.fun h2; rfl
  | str h1 => intro y h'; cases h'; rfl
  | item h1 hi =>
    intro y h'
    cases h' with
    | item => rfl
    | name _ h2 => exact absurd hi (h2 _ h1)
  | name h1 h2 _ ih =>
    intro y h'
    cases h' with
    | item h3 h4 => exact absurd h4 (h2 _ h3)
    | name h3 _ h4 => rw [h1] at h3; cases h3; exact ih h4
  | @seqOf t c vs xs h1 h2 _ ih =>
    intro y h'
    cases h' with
    | @seqOf _ _ _ ys h3 h4 h5 =>
      cases h1.fun h3
      congr 1
      apply List.ext_getElem?
      intro i
      by_cases hi : i < vs.length
      · have hi1 : i < xs.length := by omega
        have hi2 : i < ys.length := by omega
        rw [List.getElem?_eq_getElem hi1, List.getElem?_eq_getElem hi2,
          ih i vs[i] xs[i] (by simp [hi]) (by simp [hi1]) (h5 i vs[i] ys[i] (by simp [hi]) (by simp [hi2]))]
      · rw [List.getElem?_eq_none (by omega), List.getElem?_eq_none (by omega)]
  | @seq t cs fs τ xs h1 hn h2 hτ _ ih =>
    intro y h'
    cases h' with
    | @seq _ _ _ τ' ys h3 _ h4 hτ' h5 =>
      cases h1.fun h3
      congr 2
      apply List.ext_getElem?
      intro i
      by_cases hi : i < fs.length
      · have hi1 : i < xs.length := by omega
        have hi2 : i < ys.length := by omega
        have h6 : τ i = τ' i := nodup_fst_eq (hn (by rintro rfl; simp at hi)) (hτ i fs[i] (by simp [hi])) (hτ' i fs[i] (by simp [hi]))
        have h7 := h5 i fs[i] ys[i] (by simp [hi]) (by simp [hi2])
        rw [← h6] at h7
        rw [List.getElem?_eq_getElem hi1, List.getElem?_eq_getElem hi2, ih i fs[i] xs[i] (by simp [hi]) (by simp [hi1]) h7]
      · rw [List.getElem?_eq_none (by omega), List.getElem?_eq_none (by omega)]
  | choice h1 hn hm _ ih =>
    intro y h'
    cases h' with
    | choice h2 _ hm' h3 =>
      cases h1.fun h2
      cases nodup_fst_eq hn hm hm'
      rw [ih h3]

end Asn1
