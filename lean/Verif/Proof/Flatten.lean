import Verif.Model.Flatten
/-!
Lemmas about the tree without COMPONENTS OF and without shorthands of value notation.
-/
namespace Asn1

theorem optMapM_get {α β : Type} {f : α → Option β} : ∀ {l : List α} {r : List β}, l.mapM f = some r →
    l.length = r.length ∧ ∀ (i : Nat) a b, l[i]? = some a → r[i]? = some b → f a = some b
  | [], r, h => by
    simp at h; subst h; simp
  | a :: l, r, h => by
    rw [List.mapM_cons] at h
    cases ha : f a with
    | none => simp [ha] at h
    | some b =>
      cases hl : l.mapM f with
      | none => simp [ha, hl] at h
      | some r' =>
        simp [ha, hl] at h; subst h
        obtain ⟨h1, h2⟩ := optMapM_get hl
        refine ⟨by simp [h1], ?_⟩
        intro i a' b' h3 h4
        cases i with
        | zero => simp at h3 h4; subst h3 h4; exact ha
        | succ i => simp at h3 h4; exact h2 i a' b' h3 h4

theorem optMapM_of {α β : Type} {f : α → Option β} : ∀ {l : List α}, (∀ a ∈ l, ∃ b, f a = some b) →
    ∃ r, l.mapM f = some r
  | [], _ => ⟨[], by simp⟩
  | a :: l, h => by
    obtain ⟨b, hb⟩ := h a (by simp)
    obtain ⟨r, hr⟩ := optMapM_of fun a' ha' => h a' (List.mem_cons_of_mem _ ha')
    exact ⟨b :: r, by rw [List.mapM_cons]; simp [hb, hr]⟩

theorem optMapM_cons {α β : Type} {f : α → Option β} {a : α} {l : List α} {r : List β} (h : (a :: l).mapM f = some r) :
    ∃ b r', f a = some b ∧ l.mapM f = some r' ∧ r = b :: r' := by
  rw [List.mapM_cons] at h
  cases ha : f a with
  | none => simp [ha] at h
  | some b =>
    cases hl : l.mapM f with
    | none => simp [ha, hl] at h
    | some r' => simp [ha, hl] at h; exact ⟨b, r', rfl, rfl, h.symm⟩

theorem optMapM_congr {α β : Type} {f g : α → Option β} : ∀ {l : List α} {r : List β},
    (∀ a b, f a = some b → g a = some b) → l.mapM f = some r → l.mapM g = some r
  | [], r, _, h => by simpa using h
  | a :: l, r, hfg, h => by
    obtain ⟨b, r', h1, h2, rfl⟩ := optMapM_cons h
    rw [List.mapM_cons]; simp [hfg _ _ h1, optMapM_congr hfg h2]

theorem lookup_mapM {α β γ : Type} [BEq α] {f : α × β → Option (α × γ)} (hf : ∀ p q, f p = some q → q.1 = p.1) (k : α) :
    ∀ {l : List (α × β)} {r : List (α × γ)}, l.mapM f = some r →
    (l.lookup k = none ∧ r.lookup k = none) ∨
      ∃ a b c, l.lookup k = some b ∧ r.lookup k = some c ∧ (a, b) ∈ l ∧ f (a, b) = some (a, c)
  | [], r, h => by simp at h; subst h; simp
  | (a, b) :: l, r, h => by
    obtain ⟨⟨a', c⟩, r', h1, h2, rfl⟩ := optMapM_cons h
    have ha := hf _ _ h1; simp at ha; subst ha
    simp only [List.lookup_cons]
    cases hk : k == a' with
    | true => exact Or.inr ⟨a', b, c, by simp, by simp, by simp, h1⟩
    | false =>
      rcases lookup_mapM hf k h2 with h3 | ⟨a, b', c', h3, h4, h5, h6⟩
      · exact Or.inl (by simpa using h3)
      · exact Or.inr ⟨a, b', c', by simpa using h3, by simpa using h4, List.mem_cons_of_mem _ h5, h6⟩

/-! ## Kinds -/

theorem GEnv.Is.fun {P : GEnv} {t : GTy} {s : Option String} {k k' : GTy} {l l' : Option String}
    (h : P.Is t s k l) (h' : P.Is t s k' l') : k = k' ∧ l = l' := by
  induction h with
  | this hn =>
    cases h' with
    | this => exact ⟨rfl, rfl⟩
    | name => exact absurd trivial hn
  | name h1 _ ih =>
    cases h' with
    | this hn => exact absurd trivial hn
    | name h2 h3 => rw [h1] at h2; cases h2; exact ih h3

/-- The kind does not depend on the module from which one comes. -/
theorem GEnv.Is.src {P : GEnv} {t : GTy} {s : Option String} {k : GTy} {l : Option String}
    (h : P.Is t s k l) (s' : Option String) : ∃ l', P.Is t s' k l' := by
  cases h with
  | this hn => exact ⟨s', .this hn⟩
  | name h1 h2 => exact ⟨l, .name h1 h2⟩

theorem GEnv.IsKind.fun {P : GEnv} {t k k' : GTy} (h : P.IsKind t k) (h' : P.IsKind t k') : k = k' := by
  obtain ⟨l, h⟩ := h
  obtain ⟨l', h'⟩ := h'
  exact (h.fun h').1

theorem GEnv.actual_is {P : GEnv} : ∀ {n : Nat} {t : GTy} {s : Option String} {k : GTy} {l : Option String},
    P.actual n t s = some (k, l) → P.Is t s k l
  | 0, t, s, k, l, h => by
    cases t <;> simp [GEnv.actual] at h <;> obtain ⟨rfl, rfl⟩ := h <;> exact .this (by simp [GTy.IsRef])
  | n + 1, t, s, k, l, h => by
    cases t with
    | ref md nm =>
      simp only [GEnv.actual] at h
      cases ht : P.type md nm with
      | none => simp [ht] at h
      | some t => simp only [ht] at h; exact .name ht (GEnv.actual_is h)
    | _ => simp [GEnv.actual] at h <;> obtain ⟨rfl, rfl⟩ := h <;> exact .this (by simp [GTy.IsRef])

theorem GEnv.type_mem {P : GEnv} {md nm : String} {t : GTy} (h : P.type md nm = some t) : ((md, nm), t) ∈ P.types := by
  unfold GEnv.type at h
  obtain ⟨l₁, l₂, h1, -⟩ := List.lookup_eq_some_iff.1 h
  rw [h1]; simp

theorem GEnv.value_mem {P : GEnv} {md nm : String} {t : GTy × GVal} (h : P.value md nm = some t) : ((md, nm), t) ∈ P.values := by
  unfold GEnv.value at h
  obtain ⟨l₁, l₂, h1, -⟩ := List.lookup_eq_some_iff.1 h
  rw [h1]; simp

theorem GEnv.Is.fits {P : GEnv} (hP : P.Fits) {t : GTy} {s : Option String} {k : GTy} {l : Option String}
    (h : P.Is t s k l) (ht : t.Fits) : k.Fits := by
  induction h with
  | this => exact ht
  | name h1 _ ih => exact ih (hP.1 _ (GEnv.type_mem h1))

/-! ## COMPONENTS OF -/

theorem GEnv.Components.fun {P : GEnv} {cs : List GChild} {l l' : List (String × GTy)}
    (h : P.Components cs l) (h' : P.Components cs l') : l = l' := by
  induction h generalizing l' with
  | nil => cases h'; rfl
  | comp _ ih => cases h' with | comp h2 => rw [ih h2]
  | compsOf h1 _ _ ih1 ih2 =>
    cases h' with
    | compsOf h2 h3 h4 =>
      have := h1.fun h2; cases this
      rw [ih1 h3, ih2 h4]

theorem GEnv.Components.fits {P : GEnv} (hP : P.Fits) {cs : List GChild} {l : List (String × GTy)}
    (h : P.Components cs l) (hc : ∀ nm t, GChild.comp nm t ∈ cs → t.Fits) : ∀ p ∈ l, p.2.Fits := by
  induction h with
  | nil => simp
  | comp _ ih =>
    intro p hp
    rcases List.mem_cons.1 hp with rfl | hp
    · exact hc _ _ (List.mem_cons_self ..)
    · exact ih (fun nm t h => hc nm t (List.mem_cons_of_mem _ h)) p hp
  | compsOf h1 _ _ ih1 ih2 =>
    intro p hp
    obtain ⟨last, h1⟩ := h1
    have hk := h1.fits hP .ref
    cases hk with
    | seq hk =>
      rcases List.mem_append.1 hp with hp | hp
      · exact ih1 hk p hp
      · exact ih2 (fun nm t h => hc nm t (List.mem_cons_of_mem _ h)) p hp

theorem GEnv.children_cons {P : GEnv} {n : Nat} {c : GChild} {cs : List GChild} {l : List (String × GTy)}
    (h : P.children (n + 1) (c :: cs) = some l) :
    ∃ a b, P.children (n + 1) [c] = some a ∧ P.children (n + 1) cs = some b ∧ l = a ++ b := by
  simp only [GEnv.children, Option.map_eq_some_iff] at h
  obtain ⟨r, h1, rfl⟩ := h
  obtain ⟨a, r', h2, h3, rfl⟩ := optMapM_cons h1
  refine ⟨a, r'.flatten, ?_, ?_, by simp⟩
  · simp only [GEnv.children]
    rw [List.mapM_cons, h2]; simp
  · simp only [GEnv.children, h3, Option.map_some]

theorem GEnv.children_append {P : GEnv} {n : Nat} {c : GChild} {cs : List GChild} {a b : List (String × GTy)}
    (h1 : P.children (n + 1) [c] = some a) (h2 : P.children (n + 1) cs = some b) :
    P.children (n + 1) (c :: cs) = some (a ++ b) := by
  simp only [GEnv.children, Option.map_eq_some_iff] at h1 h2 ⊢
  obtain ⟨r, h1, rfl⟩ := h1
  obtain ⟨r2, h2, rfl⟩ := h2
  obtain ⟨x, r', h3, h4, rfl⟩ := optMapM_cons h1
  simp at h4; subst h4
  refine ⟨x :: r2, ?_, by simp⟩
  rw [List.mapM_cons, h3, h2]; rfl

theorem GEnv.children_sound {P : GEnv} : ∀ {n : Nat} {cs : List GChild} {l : List (String × GTy)},
    P.children n cs = some l → P.Components cs l ∧ P.Direct cs
  | 0, _, _, h => by simp [GEnv.children] at h
  | n + 1, [], l, h => by
    simp [GEnv.children] at h; subst h; exact ⟨.nil, .nil⟩
  | n + 1, c :: cs, l, h => by
    obtain ⟨a, b, h1, h2, rfl⟩ := GEnv.children_cons h
    have ih := GEnv.children_sound h2
    cases c with
    | comp nm t =>
      simp [GEnv.children] at h1; subst h1
      exact ⟨.comp ih.1, .comp ih.2⟩
    | compsOf md nm =>
      simp only [GEnv.children, List.mapM_cons, List.mapM_nil] at h1
      split at h1
      · rename_i inner ht
        cases hc : P.children n inner with
        | none => simp [hc] at h1
        | some a' =>
          simp [hc] at h1; subst h1
          have ih' := GEnv.children_sound hc
          exact ⟨.compsOf ⟨_, .name ht (.this (by simp [GTy.IsRef]))⟩ ih'.1 ih.1, .compsOf ht ih'.2 ih.2⟩
      · simp at h1

theorem GEnv.children_mono {P : GEnv} : ∀ {n m : Nat} {cs : List GChild} {l : List (String × GTy)}, n ≤ m →
    P.children n cs = some l → P.children m cs = some l
  | 0, _, _, _, _, h => by simp [GEnv.children] at h
  | n + 1, 0, _, _, hm, _ => by omega
  | n + 1, m + 1, cs, l, hm, h => by
    simp only [GEnv.children, Option.map_eq_some_iff] at h ⊢
    obtain ⟨r, h1, rfl⟩ := h
    refine ⟨r, optMapM_congr ?_ h1, rfl⟩
    intro c b hc
    cases c with
    | comp nm t => exact hc
    | compsOf md nm =>
      simp only at hc ⊢
      split at hc
      · exact GEnv.children_mono (by omega) hc
      · cases hc

theorem GEnv.Direct.accepted {P : GEnv} {cs : List GChild} (h : P.Direct cs) : ∃ n l, P.children n cs = some l := by
  induction h with
  | nil => exact ⟨1, [], by simp [GEnv.children]⟩
  | @comp nm t cs _ ih =>
    obtain ⟨n, l, hn⟩ := ih
    exact ⟨n + 1, [(nm, t)] ++ l, GEnv.children_append (by simp [GEnv.children]) (GEnv.children_mono (by omega) hn)⟩
  | @compsOf md nm inner cs ht _ _ ih1 ih2 =>
    obtain ⟨n, a, hn⟩ := ih1
    obtain ⟨m, l, hm⟩ := ih2
    refine ⟨max n m + 1, a ++ l, GEnv.children_append ?_ (GEnv.children_mono (by omega) hm)⟩
    have : P.children (max n m) inner = some a := GEnv.children_mono (by omega) hn
    simp [GEnv.children, ht, this]

/-! ## The root -/

theorem GEnv.mapRoot_types {P : GEnv} {n : Nat} {H : HEnv} (h : P.mapRoot n = some H) (md nm : String) :
    (P.type md nm = none ∧ H.type md nm = none) ∨
      ∃ t u, P.type md nm = some t ∧ H.type md nm = some u ∧ P.mapType n t = some u := by
  simp only [GEnv.mapRoot, Option.bind_eq_bind, Option.bind_eq_some_iff] at h
  obtain ⟨ts, h1, vs, -, h2⟩ := h
  cases h2
  have hf : ∀ p q, (fun p : (String × String) × GTy => (P.mapType n p.2).map fun u => (p.1, u)) p = some q → q.1 = p.1 := by
    intro p q hq
    simp only [Option.map_eq_some_iff] at hq
    obtain ⟨u, -, rfl⟩ := hq; rfl
  rcases lookup_mapM hf (md, nm) h1 with h3 | ⟨a, b, c, h3, h4, -, h5⟩
  · exact Or.inl h3
  · simp only [Option.map_eq_some_iff, Prod.mk.injEq, true_and] at h5
    obtain ⟨u, h5, rfl⟩ := h5
    exact Or.inr ⟨b, u, h3, h4, h5⟩

theorem GEnv.mapRoot_values {P : GEnv} {n : Nat} {H : HEnv} (h : P.mapRoot n = some H) {md nm : String} {t : GTy} {v : GVal}
    (hv : P.value md nm = some (t, v)) :
    ∃ u w, H.value md nm = some (u, w) ∧ P.mapType n t = some u ∧ P.mapValue n t v = some w := by
  simp only [GEnv.mapRoot, Option.bind_eq_bind, Option.bind_eq_some_iff] at h
  obtain ⟨ts, -, vs, h1, h2⟩ := h
  cases h2
  have hf : ∀ p q, (fun p : (String × String) × (GTy × GVal) => match P.mapType n p.2.1, P.mapValue n p.2.1 p.2.2 with
      | some u, some w => some (p.1, (u, w))
      | _, _ => none) p = some q → q.1 = p.1 := by
    intro p q hq
    simp only at hq
    split at hq
    · cases hq; rfl
    · cases hq
  rcases lookup_mapM hf (md, nm) h1 with h3 | ⟨a, b, c, h3, h4, -, h5⟩
  · have := h3.1; unfold GEnv.value at hv; rw [hv] at this; cases this
  · unfold GEnv.value at hv; rw [hv] at h3; cases h3
    simp only at h5
    split at h5
    · rename_i u w hu hw
      cases h5
      exact ⟨u, w, h4, hu, hw⟩
    · cases h5

/-- The kind of a type is mapped to the kind of the mapped type. -/
theorem GEnv.Is.mapped {P : GEnv} {n : Nat} {H : HEnv} (hH : P.mapRoot n = some H) {t : GTy} {s : Option String} {k : GTy}
    {l : Option String} (h : P.Is t s k l) : ∀ {m : Nat} {u : HTy}, P.mapType m t = some u →
    ∃ m' k', P.mapType m' k = some k' ∧ H.IsKind u k' := by
  induction h with
  | @this t src hn =>
    intro m u hu
    refine ⟨m, u, hu, .this ?_⟩
    intro hr
    cases u with
    | ref md nm =>
      cases m with
      | zero => simp [GEnv.mapType] at hu
      | succ m =>
        cases t <;> simp [GEnv.mapType] at hu
        · split at hu <;> simp at hu
        · exact hn trivial
    | _ => exact hr
  | @name md nm t k src last h1 _ ih =>
    intro m u hu
    cases m with
    | zero => simp [GEnv.mapType] at hu
    | succ m =>
      simp [GEnv.mapType] at hu; subst hu
      rcases GEnv.mapRoot_types hH md nm with h2 | ⟨t', u', h2, h3, h4⟩
      · rw [h1] at h2; exact absurd h2.1 (by simp)
      · rw [h1] at h2; cases h2
        obtain ⟨m', k', h5, h6⟩ := ih h4
        exact ⟨m', k', h5, .name h3 h6⟩

theorem GEnv.IsKind.mapped {P : GEnv} {n : Nat} {H : HEnv} (hH : P.mapRoot n = some H) {t k : GTy} (h : P.IsKind t k)
    {m : Nat} {u : HTy} (hu : P.mapType m t = some u) : ∃ m' k', P.mapType (m' + 1) k = some k' ∧ H.IsKind u k' := by
  obtain ⟨l, h⟩ := h
  obtain ⟨m', k', h1, h2⟩ := h.mapped hH hu
  cases m' with
  | zero => simp [GEnv.mapType] at h1
  | succ m' => exact ⟨m', k', h1, h2⟩

/-- An ENUMERATED type of the tree was one. -/
theorem HEnv.IsKind.enum {P : GEnv} {n : Nat} {H : HEnv} (hH : P.mapRoot n = some H) {u k : HTy} (h : H.IsKind u k)
    {items : List String} (hk : k = .enum items) : ∀ {m : Nat} {t : GTy} (s : Option String), P.mapType m t = some u →
    ∃ last, P.Is t s (.enum items) last := by
  induction h with
  | this hn =>
    intro m t s hu
    subst hk
    cases m with
    | zero => simp [GEnv.mapType] at hu
    | succ m =>
      cases t <;> simp [GEnv.mapType] at hu
      · subst hu; exact ⟨s, .this (by simp [GTy.IsRef])⟩
      · split at hu <;> simp at hu
  | @name md nm u' k h1 _ ih =>
    intro m t s hu
    cases m with
    | zero => simp [GEnv.mapType] at hu
    | succ m =>
      cases t <;> simp [GEnv.mapType] at hu
      · split at hu <;> simp at hu
      · rename_i md' nm'
        obtain ⟨rfl, rfl⟩ := hu
        rcases GEnv.mapRoot_types hH md' nm' with h2 | ⟨t', u'', h2, h3, h4⟩
        · rw [h1] at h2; exact absurd h2.2 (by simp)
        · rw [h1] at h3; cases h3
          obtain ⟨last, h5⟩ := ih hk (some md') h4
          exact ⟨last, .name h2 h5⟩

end Asn1
