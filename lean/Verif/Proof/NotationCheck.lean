import Verif.Proof.NotationCon
/-!
# C97: helper lemmas
-/
namespace Asn1

/-- The computation does not fail, and its answer is right. -/
def Answers (o : Option Bool) (P : Prop) : Prop := (o = some true ∧ P) ∨ (o = some false ∧ ¬ P)

theorem Answers.congr {o : Option Bool} {P Q : Prop} (h : Answers o P) (e : P ↔ Q) : Answers o Q := by
  rcases h with ⟨h1, h2⟩ | ⟨h1, h2⟩
  · exact .inl ⟨h1, e.1 h2⟩
  · exact .inr ⟨h1, fun q => h2 (e.2 q)⟩

theorem Answers.of {b : Bool} {P : Prop} (h : b = true ↔ P) : Answers (some b) P := by
  cases b
  · exact .inr ⟨rfl, fun p => by simpa using h.2 p⟩
  · exact .inl ⟨rfl, h.1 rfl⟩

theorem Answers.isTrue {o : Option Bool} {P : Prop} (h : Answers o P) : o = some true ↔ P := by
  rcases h with ⟨h1, h2⟩ | ⟨h1, h2⟩ <;> simp [h1, h2]

theorem Answers.andB {o o' : Option Bool} {P Q : Prop} (h : Answers o P) (h' : P → Answers o' Q) : Answers (andB o o') (P ∧ Q) := by
  rcases h with ⟨h1, h2⟩ | ⟨h1, h2⟩
  · rw [h1, Asn1.andB]
    exact (h' h2).congr (by simp [h2])
  · rw [h1]
    exact .inr ⟨rfl, fun p => h2 p.1⟩

theorem Answers.or {o o' : Option Bool} {P Q : Prop} (h : Answers o P) (h' : Answers o' Q) :
    Answers (do let x ← o; let y ← o'; some (x || y)) (P ∨ Q) := by
  rcases h with ⟨h1, h2⟩ | ⟨h1, h2⟩ <;> rcases h' with ⟨h3, h4⟩ | ⟨h3, h4⟩ <;> rw [h1, h3] <;> simp [Answers, h2, h4]

theorem Answers.not {o : Option Bool} {P : Prop} (h : Answers o P) : Answers (o.map (!·)) (¬ P) := by
  rcases h with ⟨h1, h2⟩ | ⟨h1, h2⟩ <;> rw [h1] <;> simp [Answers, h2]

theorem Answers.allB {α : Type} {f : α → Option Bool} {P : α → Prop} : ∀ {l : List α}, (∀ c ∈ l, Answers (f c) (P c)) →
    Answers (allB f l) (∀ c ∈ l, P c)
  | [], _ => .inl ⟨rfl, by simp⟩
  | c :: l, h => by
    rw [Asn1.allB]
    exact (Answers.andB (h c List.mem_cons_self) fun _ => Answers.allB fun d hd => h d (List.mem_cons_of_mem _ hd)).congr (by simp)

theorem Answers.vnsAll {f : VN → Option Bool} {P : VN → Prop} : ∀ {l : VNs}, (∀ w ∈ l.toList, Answers (f w) (P w)) →
    Answers (l.allB f) (∀ w ∈ l.toList, P w)
  | .nil, _ => .inl ⟨rfl, by simp [VNs.toList]⟩
  | .cons v rest, h => by
    rw [VNs.allB]
    rw [VNs.toList] at h ⊢
    exact (Answers.andB (h v List.mem_cons_self) fun _ => Answers.vnsAll fun d hd => h d (List.mem_cons_of_mem _ hd)).congr (by simp)

theorem Answers.fieldsAll {f : String → VN → Option Bool} {P : String × VN → Prop} : ∀ {l : VNFields}, (∀ p ∈ l.toList, Answers (f p.1 p.2) (P p)) →
    Answers (l.allB f) (∀ p ∈ l.toList, P p)
  | .nil, _ => .inl ⟨rfl, by simp [VNFields.toList]⟩
  | .cons n v rest, h => by
    rw [VNFields.allB]
    rw [VNFields.toList] at h ⊢
    exact (Answers.andB (h (n, v) List.mem_cons_self) fun _ => Answers.fieldsAll fun d hd => h d (List.mem_cons_of_mem _ hd)).congr (by simp)

/-! ## Comparisons -/

theorem upTo_int {v w : VN} {x y : Int} (hv : v.RefersTo (.int x)) (hw : w.RefersTo (.int y)) (i : Bool) :
    Answers (v.upTo i w) (if i then x ≤ y else x < y) := by
  unfold VN.upTo VN.cmp
  rw [(VN.base_iff _ _).2 hv, (VN.base_iff _ _).2 hw]
  refine Answers.of ?_
  unfold cmpInt
  cases i <;> simp <;> split <;> (try split) <;> omega

theorem upTo_real {v w : VN} {x y : Dbl} (hv : v.RefersTo (.real x)) (hw : w.RefersTo (.real y)) (hx : dblIsNan x = false) (hy : dblIsNan y = false)
    (i : Bool) : Answers (v.upTo i w) (if i then dblLe x y = true else dblLt x y = true) := by
  unfold VN.upTo VN.cmp
  rw [(VN.base_iff _ _).2 hv, (VN.base_iff _ _).2 hw]
  refine Answers.of ?_
  unfold cmpDbl dblEq dblLt dblLe
  cases i <;> simp [hx, hy] <;> split <;> (try split) <;> omega

theorem upTo_char {v w : VN} {x y : Byte} (hv : v.RefersTo (.str [x])) (hw : w.RefersTo (.str [y])) (i : Bool) :
    Answers (v.upTo i w) (if i then x.toNat ≤ y.toNat else x.toNat < y.toNat) := by
  unfold VN.upTo VN.cmp
  rw [(VN.base_iff _ _).2 hv, (VN.base_iff _ _).2 hw]
  refine Answers.of ?_
  simp only [cmpBytes]
  cases i <;> by_cases h1 : x.toNat < y.toNat <;> by_cases h2 : y.toNat < x.toNat <;> simp [h1, h2] <;> omega

/-! ## FROM -/

theorem charAllowed (e : Bool) (bo : Option BitOrOct) (ch : Byte) : ∀ c : XC, c.CharPlain → Answers (isAllowed e bo c (.str [ch])) (c.CharSat ch)
  | .single v, h => by
    obtain ⟨x, rfl⟩ := h
    rw [isAllowed, VN.eq]
    have : (VN.str [ch]).other e = some (.str [ch]) := by cases e <;> rfl
    rw [this]
    refine (Answers.of (P := x = ch) ?_).congr ?_
    · simp
    · rw [XC.CharSat]
      constructor
      · rintro rfl
        exact ⟨[x], .written (by simp [VN.IsName]), by simp⟩
      · rintro ⟨l, hl, hm⟩
        have := refersTo_unique hl (.written (by simp [VN.IsName]))
        cases this
        have : ch = x := by simpa using hm
        exact this.symm
  | .range v1 v2 i j, h => by
    obtain ⟨⟨x, hx⟩, y, hy⟩ := h
    have hc : VN.RefersTo (.str [ch]) (.str [ch]) := .written (by simp [VN.IsName])
    rw [isAllowed, XC.CharSat, refers_char hx (fun x => if i = true then x.toNat ≤ ch.toNat else x.toNat < ch.toNat),
      refers_char hy (fun x => if j = true then ch.toNat ≤ x.toNat else ch.toNat < x.toNat)]
    exact Answers.andB (upTo_char hx hc i) fun _ => upTo_char hc hy j
  | .valMax v1 i, h => by
    obtain ⟨x, hx⟩ := h
    have hc : VN.RefersTo (.str [ch]) (.str [ch]) := .written (by simp [VN.IsName])
    rw [isAllowed, XC.CharSat, refers_char hx (fun x => if i = true then x.toNat ≤ ch.toNat else x.toNat < ch.toNat)]
    exact upTo_char hx hc i
  | .minVal v2 j, h => by
    obtain ⟨y, hy⟩ := h
    have hc : VN.RefersTo (.str [ch]) (.str [ch]) := .written (by simp [VN.IsName])
    rw [isAllowed, XC.CharSat, refers_char hy (fun x => if j = true then ch.toNat ≤ x.toNat else ch.toNat < x.toNat)]
    exact upTo_char hc hy j
  | .union c d, h => by
    rw [isAllowed, XC.CharSat]
    exact Answers.or (charAllowed e bo ch c h.1) (charAllowed e bo ch d h.2)
  | .inter c d, h => by
    rw [isAllowed, XC.CharSat]
    exact Answers.andB (charAllowed e bo ch c h.1) fun _ => charAllowed e bo ch d h.2
  | .allExcept c, h => by
    rw [isAllowed, XC.CharSat]
    exact Answers.not (charAllowed e bo ch c h)
  | .except c d, h => by
    rw [isAllowed, XC.CharSat]
    exact Answers.andB (charAllowed e bo ch c h.1) fun _ => Answers.not (charAllowed e bo ch d h.2)
  | .root c, h => by
    rw [isAllowed, XC.CharSat]
    exact charAllowed e bo ch c h
  | .root2 c d, h => by
    rw [isAllowed, XC.CharSat]
    rcases charAllowed e bo ch c h.1 with ⟨h1, h2⟩ | ⟨h1, h2⟩
    · rw [h1]; exact .inl ⟨rfl, .inl h2⟩
    · rw [h1]; exact (charAllowed e bo ch d h.2).congr (by simp [h2])
  | .size c, h => h.elim
  | .alphabet c, h => h.elim
  | .component c, h => h.elim
  | .components ncs, h => h.elim

/-! ## Single values -/

theorem VN.isName_name {v : VN} : v.IsName ↔ ∃ nm, v.name = some nm := by
  cases v <;> simp [VN.IsName, VN.name]

theorem VN.item_name {items : List (String × Int)} {v : VN} {x : Int} (h : v.Item items x) : ∃ nm, v.name = some nm := by
  cases h <;> exact ⟨_, rfl⟩

theorem VN.item_of_name {items : List (String × Int)} {v : VN} {nm : String} (h : v.name = some nm) (hm : nm ∈ items.map (·.1)) {x : Int} :
    v.Item items x ↔ (nm, x) ∈ items := by
  constructor
  · intro hi
    cases hi with
    | ident hi => simp only [VN.name, Option.some.injEq] at h; rw [← h]; exact hi
    | item hi => simp only [VN.name, Option.some.injEq] at h; rw [← h]; exact hi
    | name hn _ => simp only [VN.name, Option.some.injEq] at h; exact absurd (h ▸ hm) hn
  · intro hi
    cases v <;> simp [VN.name] at h
    · exact .ident (h ▸ hi)
    · exact .item (h ▸ hi)

theorem VN.eq_names {e : Bool} {v w : VN} {n m : String} (hv : v.name = some n) (hw : w.name = some m) : v.eq e w = some (n == m) := by
  cases v <;> simp [VN.name] at hv
  · rw [VN.eq, hw, hv]
  · rw [VN.eq, hw, hv]

theorem nodup_snd_unique {α β : Type} {l : List (α × β)} (hn : (l.map (·.2)).Nodup) {n m : α} {x : β} (h : (n, x) ∈ l) (h' : (m, x) ∈ l) : n = m := by
  induction l with
  | nil => cases h
  | cons p l ih =>
    rw [List.map_cons, List.nodup_cons] at hn
    rcases List.mem_cons.1 h with e | hx'
    · rcases List.mem_cons.1 h' with e' | hy'
      · rw [← e] at e'; cases e'; rfl
      · exact absurd (List.mem_map.2 ⟨_, hy', by rw [← e]⟩) hn.1
    · rcases List.mem_cons.1 h' with e' | hy'
      · exact absurd (List.mem_map.2 ⟨_, hx', by rw [← e']⟩) hn.1
      · exact ih hn.2 hx' hy'

theorem NTy.direct_stripped : ∀ (t : NTy) (v : VN), t.Direct v ↔ t.stripped.Direct v
  | .ref _ _ t _, v => by rw [NTy.stripped, NTy.Direct]; exact NTy.direct_stripped t v
  | .int _, _ => Iff.rfl
  | .real _, _ => Iff.rfl
  | .bool _, _ => Iff.rfl
  | .null _, _ => Iff.rfl
  | .enum _ _, _ => Iff.rfl
  | .octets _, _ => Iff.rfl
  | .bits _, _ => Iff.rfl
  | .str _, _ => Iff.rfl
  | .oid _, _ => Iff.rfl
  | .seq _ _, _ => Iff.rfl
  | .seqOf _ _, _ => Iff.rfl
  | .choice _ _, _ => Iff.rfl

/-- Is the type ENUMERATED. -/
def NTy.IsEnum (t : NTy) : Prop := ∃ items cons, t.stripped = .enum items cons

theorem dblEq_symm (a b : Dbl) : dblEq a b = true ↔ dblEq b a = true := by
  unfold dblEq
  simp only [Bool.and_eq_true, decide_eq_true_eq]
  constructor <;> (rintro ⟨⟨h1, h2⟩, h3⟩; exact ⟨⟨h2, h1⟩, h3.symm⟩)

theorem singleAllowed {t : NTy} {v1 v : VN} {a : AV} {e : Bool} (hp : plainSingle t v1) (hd : t.Distinct) (ha : t.Denotes v a) (hi : t.Direct v)
    (he : e = true → t.IsEnum) : Answers (v1.eq e v) (∃ b, t.Denotes v1 b ∧ a.Equals b) := by
  by_cases hen : t.IsEnum
  · obtain ⟨items, cons, hs⟩ := hen
    have hd' := (NTy.distinct_stripped t).1 hd
    rw [hs, NTy.Distinct] at hd'
    unfold plainSingle at hp
    rw [NTy.denotes_stripped, hs] at ha
    rw [NTy.direct_stripped, hs, NTy.Direct] at hi
    rw [hs] at hp
    simp only [NTy.denotes_stripped t, hs, NTy.Denotes]
    have hp' : ∃ nm, v1.name = some nm ∧ nm ∈ items.map (·.1) := by cases v1 <;> exact hp
    obtain ⟨n, hn, hm⟩ := hp'
    obtain ⟨y, hy, ea⟩ := ha
    obtain ⟨n', hn'⟩ := VN.item_name hy
    have hm' := hi n' hn'
    have hy' := (VN.item_of_name hn' hm').1 hy
    rw [VN.eq_names hn hn']
    refine (Answers.of (P := n = n') (by simp)).congr ?_
    subst ea
    constructor
    · rintro rfl
      exact ⟨.enum y, ⟨y, (VN.item_of_name hn hm).2 hy', rfl⟩, rfl⟩
    · rintro ⟨b, ⟨x, hx, eb⟩, hq⟩
      subst eb
      have hq' : y = x := by simpa [AV.Equals] using hq
      subst hq'
      exact nodup_snd_unique hd'.2 ((VN.item_of_name hn hm).1 hx) hy'
  · have he' : e = false := by
      cases e
      · rfl
      · exact absurd (he rfl) hen
    subst he'
    unfold plainSingle at hp
    rw [NTy.denotes_stripped] at ha
    rw [NTy.direct_stripped] at hi
    simp only [NTy.denotes_stripped t]
    have w : ∀ {u : VN}, ¬ u.IsName → u.RefersTo u := fun h => .written h
    cases hs : t.stripped <;> rw [hs] at hp ha hi
    case enum items cons => exact absurd ⟨items, cons, hs⟩ hen
    case int =>
      cases v1 <;> simp only at hp
      rename_i x
      obtain ⟨y, hy, rfl⟩ := ha
      rw [VN.eq, VN.other, if_neg (by simp), (VN.base_iff _ _).2 hy]
      refine (Answers.of (b := x == y) (P := x = y) (by simp)).congr ⟨fun h => ⟨.int x, ⟨x, w (by simp [VN.IsName]), rfl⟩, by rw [h]; rfl⟩, ?_⟩
      rintro ⟨b, ⟨z, hz, rfl⟩, hq⟩
      cases refersTo_unique (w (by simp [VN.IsName])) hz
      simpa [AV.Equals, eq_comm] using hq
    case real =>
      cases v1 <;> simp only at hp
      rename_i x
      rw [NTy.Direct] at hi
      rcases ha with ⟨y, hy, rfl⟩ | ⟨y, hy, _⟩
      · rw [VN.eq, VN.other, if_neg (by simp), (VN.base_iff _ _).2 hy]
        refine (Answers.of (b := dblEq x y) (P := dblEq x y = true) (by simp)).congr
          ⟨fun h => ⟨.real x, .inl ⟨x, w (by simp [VN.IsName]), rfl⟩, (dblEq_symm _ _).1 h⟩, ?_⟩
        rintro ⟨b, hb, hq⟩
        rcases hb with ⟨z, hz, rfl⟩ | ⟨z, hz, rfl⟩
        · cases refersTo_unique (w (by simp [VN.IsName])) hz
          exact (dblEq_symm _ _).1 hq
        · cases refersTo_unique (w (by simp [VN.IsName])) hz
      · exact absurd hy (hi.1 y)
    case bool =>
      cases v1 <;> simp only at hp
      rename_i x
      obtain ⟨y, hy, rfl⟩ := ha
      rw [VN.eq, VN.other, if_neg (by simp), (VN.base_iff _ _).2 hy]
      refine (Answers.of (b := x == y) (P := x = y) (by simp)).congr ⟨fun h => ⟨.bool x, ⟨x, w (by simp [VN.IsName]), rfl⟩, by rw [h]; rfl⟩, ?_⟩
      rintro ⟨b, ⟨z, hz, rfl⟩, hq⟩
      cases refersTo_unique (w (by simp [VN.IsName])) hz
      simpa [AV.Equals, eq_comm] using hq
    case null =>
      cases v1 <;> simp only at hp
      obtain ⟨hy, rfl⟩ := ha
      rw [VN.eq, VN.other, if_neg (by simp), (VN.base_iff _ _).2 hy]
      exact .inl ⟨rfl, .null, ⟨w (by simp [VN.IsName]), rfl⟩, rfl⟩
    case octets =>
      cases v1 <;> simp only at hp
      rename_i x
      rw [NTy.Direct] at hi
      rcases ha with ⟨y, hy, rfl⟩ | ⟨y, _, hy, _⟩
      · rw [VN.eq, VN.other, if_neg (by simp), (VN.base_iff _ _).2 hy]
        refine (Answers.of (b := x == y) (P := x = y) (by simp)).congr
          ⟨fun h => ⟨.octets x, .inl ⟨x, w (by simp [VN.IsName]), rfl⟩, by rw [h]; rfl⟩, ?_⟩
        rintro ⟨b, hb, hq⟩
        rcases hb with ⟨z, hz, rfl⟩ | ⟨z, _, hz, _, _⟩
        · cases refersTo_unique (w (by simp [VN.IsName])) hz
          simpa [AV.Equals, eq_comm] using hq
        · cases refersTo_unique (w (by simp [VN.IsName])) hz
      · exact absurd hy (hi y)
    case bits =>
      cases v1 <;> simp only at hp
      rename_i x
      rw [NTy.Direct] at hi
      rcases ha with ⟨y, hy, rfl⟩ | ⟨y, hy, _⟩
      · rw [VN.eq, VN.other, if_neg (by simp), (VN.base_iff _ _).2 hy]
        refine (Answers.of (b := x == y) (P := x = y) (by simp)).congr
          ⟨fun h => ⟨.bits x, .inl ⟨x, w (by simp [VN.IsName]), rfl⟩, by rw [h]; rfl⟩, ?_⟩
        rintro ⟨b, hb, hq⟩
        rcases hb with ⟨z, hz, rfl⟩ | ⟨z, hz, _⟩
        · cases refersTo_unique (w (by simp [VN.IsName])) hz
          simpa [AV.Equals, eq_comm] using hq
        · cases refersTo_unique (w (by simp [VN.IsName])) hz
      · exact absurd hy (hi y)
    case str =>
      cases v1 <;> simp only at hp
      rename_i x
      obtain ⟨y, hy, rfl⟩ := ha
      rw [VN.eq, VN.other, if_neg (by simp), (VN.base_iff _ _).2 hy]
      refine (Answers.of (b := x == y) (P := x = y) (by simp)).congr ⟨fun h => ⟨.str x, ⟨x, w (by simp [VN.IsName]), rfl⟩, by rw [h]; rfl⟩, ?_⟩
      rintro ⟨b, ⟨z, hz, rfl⟩, hq⟩
      cases refersTo_unique (w (by simp [VN.IsName])) hz
      simpa [AV.Equals, eq_comm] using hq
    all_goals exact hp.elim

/-! ## Ranges -/

theorem lowerAllowed {t : NTy} {v1 v : VN} {a : AV} (hp : plainBound t v1) (ha : t.Denotes v a) (hi : t.Direct v) (i : Bool) :
    Answers (v1.upTo i v) (∃ b, t.Denotes v1 b ∧ b.UpTo i a) := by
  unfold plainBound at hp
  rw [NTy.direct_stripped] at hi
  cases hs : t.stripped <;> rw [hs] at hp hi <;> try (exact hp.elim)
  · obtain ⟨x, hx⟩ := hp
    obtain ⟨y, hy, rfl⟩ := (denotes_int hs).1 ha
    rw [lower_int hs hx]
    exact (upTo_int hx hy i).congr (by simp)
  · obtain ⟨x, hx, hnx⟩ := hp
    rw [NTy.Direct] at hi
    have hx' : t.Denotes v1 (.real x) := by rw [NTy.denotes_stripped, hs]; exact .inl ⟨x, hx, rfl⟩
    rw [NTy.denotes_stripped, hs] at ha
    rcases ha with ⟨y, hy, rfl⟩ | ⟨y, hy, _⟩
    · rw [lower_real hs hx']
      exact (upTo_real hx hy hnx (hi.2 y hy) i).congr (by simp)
    · exact absurd hy (hi.1 y)

theorem upperAllowed {t : NTy} {v2 v : VN} {a : AV} (hp : plainBound t v2) (ha : t.Denotes v a) (hi : t.Direct v) (i : Bool) :
    Answers (v.upTo i v2) (∃ b, t.Denotes v2 b ∧ a.UpTo i b) := by
  unfold plainBound at hp
  rw [NTy.direct_stripped] at hi
  cases hs : t.stripped <;> rw [hs] at hp hi <;> try (exact hp.elim)
  · obtain ⟨x, hx⟩ := hp
    obtain ⟨y, hy, rfl⟩ := (denotes_int hs).1 ha
    rw [upper_int hs hx]
    exact (upTo_int hy hx i).congr (by simp)
  · obtain ⟨x, hx, hnx⟩ := hp
    rw [NTy.Direct] at hi
    have hx' : t.Denotes v2 (.real x) := by rw [NTy.denotes_stripped, hs]; exact .inl ⟨x, hx, rfl⟩
    rw [NTy.denotes_stripped, hs] at ha
    rcases ha with ⟨y, hy, rfl⟩ | ⟨y, hy, _⟩
    · rw [upper_real hs hx']
      exact (upTo_real hy hx (hi.2 y hy) hnx i).congr (by simp)
    · exact absurd hy (hi.1 y)

/-! ## SIZE -/

/-- What the check is told about the type. -/
def NTy.bitOrOct (t : NTy) : Option BitOrOct :=
  match t.stripped with
  | .octets _ => some .oct
  | .bits _ => some .bit
  | _ => none

theorem VNs.length_eq : ∀ l : VNs, l.length = l.toList.length
  | .nil => rfl
  | .cons v rest => by rw [VNs.length, VNs.toList, VNs.length_eq rest]; rfl

theorem sizeAllowed {t : NTy} {v : VN} {a : AV} {inside : Bool} {bo : Option BitOrOct} (hp : plainSize inside t) (ha : t.Denotes v a) (hi : t.Direct v)
    (hb : inside = false → bo = t.bitOrOct) : ∃ n, v.sizeFor bo = some (some n) ∧ a.size = some n := by
  unfold plainSize at hp
  rw [NTy.direct_stripped] at hi
  rw [NTy.denotes_stripped] at ha
  unfold NTy.bitOrOct at hb
  unfold VN.sizeFor
  cases hs : t.stripped <;> rw [hs] at hp hi ha hb <;> try (exact hp.elim)
  case octets =>
    rw [NTy.Direct] at hi
    rcases ha with ⟨l, hl, rfl⟩ | ⟨l, _, hl, _⟩
    · rw [(VN.base_iff _ _).2 hl, hb hp]
      exact ⟨_, rfl, rfl⟩
    · exact absurd hl (hi l)
  case bits =>
    rw [NTy.Direct] at hi
    rcases ha with ⟨l, hl, rfl⟩ | ⟨l, hl, _⟩
    · rw [(VN.base_iff _ _).2 hl, hb hp]
      exact ⟨_, rfl, rfl⟩
    · exact absurd hl (hi l)
  case str =>
    obtain ⟨l, hl, rfl⟩ := ha
    rw [(VN.base_iff _ _).2 hl]
    exact ⟨_, rfl, rfl⟩
  case seqOf =>
    obtain ⟨l, xs, hl, rfl, hf⟩ := ha
    rw [(VN.base_iff _ _).2 hl]
    refine ⟨_, rfl, ?_⟩
    rw [AV.size, VNs.length_eq, hf.length_eq]

/-! ## Components -/

theorem NFields.denotes_get : ∀ {fs : NFields} {l : VNFields} {xs : List (Option AV)}, fs.Denotes l xs → ∀ {i : Nat} {nm : String} {o : NOpt} {u : NTy},
    fs.toList[i]? = some (nm, o, u) →
    (∃ w y, (nm, w) ∈ l.toList ∧ xs[i]? = some (some y) ∧ u.Denotes w y) ∨ (nm ∉ l.toList.map (·.1) ∧ xs[i]? = some none)
  | .nil, l, xs, _, i, nm, o, u, h => by simp [NFields.toList] at h
  | .cons n o' t rest, l, xs, hf, i, nm, o, u, h => by
    obtain ⟨x, xs', rfl, h1, h2⟩ := hf
    rw [NFields.toList] at h
    cases i with
    | zero =>
      simp only [List.getElem?_cons_zero, Option.some.injEq, Prod.mk.injEq] at h
      obtain ⟨rfl, rfl, rfl⟩ := h
      rcases h1 with ⟨w, y, hm, rfl, hy⟩ | ⟨hm, _, rfl⟩
      · exact .inl ⟨w, y, hm, rfl, hy⟩
      · exact .inr ⟨hm, rfl⟩
    | succ i =>
      simp only [List.getElem?_cons_succ] at h ⊢
      exact NFields.denotes_get h2 h

theorem NFields.direct_get : ∀ {fs : NFields} {l : VNFields}, fs.Direct l → ∀ {i : Nat} {nm : String} {o : NOpt} {u : NTy} {w : VN},
    fs.toList[i]? = some (nm, o, u) → (nm, w) ∈ l.toList → u.Direct w
  | .nil, l, _, i, nm, o, u, w, h, _ => by simp [NFields.toList] at h
  | .cons n o' t rest, l, hd, i, nm, o, u, w, h, hw => by
    rw [NFields.Direct] at hd
    rw [NFields.toList] at h
    cases i with
    | zero =>
      simp only [List.getElem?_cons_zero, Option.some.injEq, Prod.mk.injEq] at h
      obtain ⟨rfl, rfl, rfl⟩ := h
      exact hd.1 w hw
    | succ i => exact NFields.direct_get hd.2 (by simpa using h) hw

theorem NAlts.denotes_get : ∀ {alts : NAlts} {nm : String} {w : VN} {k : Nat} {x : AV}, alts.Denotes nm w k x →
    ∃ u, alts.toList[k]? = some (nm, u) ∧ u.Denotes w x
  | .nil, _, _, _, _, h => h.elim
  | .cons n t rest, nm, w, k, x, h => by
    rcases h with ⟨rfl, rfl, h⟩ | ⟨j, rfl, h⟩
    · exact ⟨t, rfl, h⟩
    · obtain ⟨u, h1, h2⟩ := NAlts.denotes_get h
      exact ⟨u, by simpa [NAlts.toList] using h1, h2⟩

theorem NAlts.direct_get : ∀ {alts : NAlts} {nm : String} {w : VN}, alts.Direct nm w → ∀ {i : Nat} {u : NTy}, alts.toList[i]? = some (nm, u) → u.Direct w
  | .nil, nm, w, _, i, u, h => by simp [NAlts.toList] at h
  | .cons n t rest, nm, w, hd, i, u, h => by
    rw [NAlts.Direct] at hd
    rw [NAlts.toList] at h
    cases i with
    | zero =>
      simp only [List.getElem?_cons_zero, Option.some.injEq, Prod.mk.injEq] at h
      obtain ⟨rfl, rfl⟩ := h
      exact hd.1 rfl
    | succ i => exact NAlts.direct_get hd.2 (by simpa using h)

theorem written_eq {v w : VN} (h : v.RefersTo w) (hn : ¬ v.IsName) : v = w := by
  cases h with
  | written _ => rfl
  | name _ => exact absurd trivial hn

theorem base_of_written {v : VN} (h : ¬ v.IsName) : v.base = some v := (VN.base_iff _ _).2 (.written h)

/-- Entries for other alternatives than the chosen one hold. -/
theorem XCs.sat_other {t : NTy} {alts : NAlts} {cons : List XC} (hs : t.stripped = .choice alts cons) (hn : (alts.toList.map (·.1)).Nodup) {nm : String} {k : Nat} {u : NTy}
    (hk : alts.toList[k]? = some (nm, u)) (x : AV) : ∀ {ncs : XCs}, nm ∉ ncs.names → ncs.Plain t → ncs.Sat t (.choice k x)
  | .nil, _, _ => trivial
  | .bare n m rest, hm, hp => by
    rw [XCs.Plain] at hp
    rw [XCs.names, List.mem_cons] at hm
    obtain ⟨⟨i, w, hpart⟩, hmark, hrest⟩ := hp
    rw [XCs.Sat]
    refine ⟨⟨i, w, hpart, ?_⟩, XCs.sat_other hs hn hk x (fun h => hm (.inr h)) hrest⟩
    unfold NTy.IsPart at hpart
    rw [hs] at hpart
    simp only at hpart
    have : k ≠ i := by
      rintro rfl
      rw [hk] at hpart
      cases hpart
      exact hm (.inl rfl)
    rw [AV.part, if_neg this]
    unfold plainMark at hmark
    rw [hs] at hmark
    cases m <;> simp [Mark.Sat] at hmark ⊢
  | .cons n m c rest, hm, hp => by
    rw [XCs.Plain] at hp
    rw [XCs.names, List.mem_cons] at hm
    obtain ⟨⟨i, w, hpart, _⟩, hmark, hrest⟩ := hp
    rw [XCs.Sat]
    refine ⟨⟨i, w, hpart, ?_⟩, XCs.sat_other hs hn hk x (fun h => hm (.inr h)) hrest⟩
    unfold NTy.IsPart at hpart
    rw [hs] at hpart
    simp only at hpart
    have : k ≠ i := by
      rintro rfl
      rw [hk] at hpart
      cases hpart
      exact hm (.inl rfl)
    rw [AV.part, if_neg this]
    unfold plainMark at hmark
    rw [hs] at hmark
    cases m <;> simp [Mark.Sat] at hmark ⊢

theorem not_plain {t s : NTy} (hs : t.stripped = s) (h1 : ∀ fs cons, s ≠ .seq fs cons) (h2 : ∀ alts cons, s ≠ .choice alts cons) :
    ∀ ncs : XCs, ¬ ncs.Plain t
  | .nil => by
    rw [XCs.Plain, hs]
    rintro (⟨fs, cons, h⟩ | ⟨alts, cons, h⟩)
    · exact h1 _ _ h
    · exact h2 _ _ h
  | .bare nm m rest => by
    rw [XCs.Plain]
    exact fun h => not_plain hs h1 h2 rest h.2.2
  | .cons nm m c rest => by
    rw [XCs.Plain]
    exact fun h => not_plain hs h1 h2 rest h.2.2

/-! ## The check of a constraint -/

mutual
theorem isAllowed_sat : ∀ (c : XC) (inside : Bool) (t : NTy) (v : VN) (a : AV) (e : Bool) (bo : Option BitOrOct), c.Plain inside t → t.Distinct →
    t.Denotes v a → t.Direct v → (e = true → t.IsEnum) → (inside = false → bo = t.bitOrOct) → Answers (isAllowed e bo c v) (c.Sat t a)
  | .single v1, inside, t, v, a, e, bo, hp, hd, ha, hi, he, _ => by
    rw [isAllowed, XC.Sat]
    exact singleAllowed hp hd ha hi he
  | .range v1 v2 i j, inside, t, v, a, e, bo, hp, hd, ha, hi, he, _ => by
    rw [isAllowed, XC.Sat]
    exact Answers.andB (lowerAllowed hp.1 ha hi i) fun _ => upperAllowed hp.2 ha hi j
  | .valMax v1 i, inside, t, v, a, e, bo, hp, hd, ha, hi, he, _ => by
    rw [isAllowed, XC.Sat]
    exact lowerAllowed hp ha hi i
  | .minVal v2 j, inside, t, v, a, e, bo, hp, hd, ha, hi, he, _ => by
    rw [isAllowed, XC.Sat]
    exact upperAllowed hp ha hi j
  | .size c, inside, t, v, a, e, bo, hp, hd, ha, hi, he, hb => by
    rw [XC.Plain] at hp
    obtain ⟨n, h1, h2⟩ := sizeAllowed hp.1 ha hi hb
    have he' : e = false := by
      cases e
      · rfl
      · obtain ⟨items, cons, hs⟩ := he rfl
        have := hp.1
        unfold plainSize at this
        rw [hs] at this
        exact this.elim
    subst he'
    rw [isAllowed, h1, XC.Sat]
    refine (isAllowed_sat c true (.int []) (.int n) (.int n) false bo hp.2 (by simp [NTy.Distinct])
      ⟨n, .written (by simp [VN.IsName]), rfl⟩ (by simp [NTy.Direct]) (by simp) (by simp)).congr ?_
    constructor
    · exact fun h => ⟨n, h2, h⟩
    · rintro ⟨m, hm, h⟩
      rw [h2] at hm
      cases hm
      exact h
  | .alphabet c, inside, t, v, a, e, bo, hp, hd, ha, hi, he, _ => by
    obtain ⟨⟨cons, hs⟩, hc⟩ := hp
    rw [NTy.denotes_stripped, hs] at ha
    obtain ⟨s, hs', rfl⟩ := ha
    have hsat : XC.Sat (.alphabet c) t (.str s) ↔ ∀ ch ∈ s, c.CharSat ch := by
      rw [XC.Sat]
      constructor
      · rintro ⟨l, hl, h⟩; cases hl; exact h
      · exact fun h => ⟨s, rfl, h⟩
    refine Answers.congr ?_ hsat.symm
    rw [isAllowed, (VN.base_iff _ _).2 hs']
    have single : ∀ w, c = .single (.str w) → Answers (some (s.all w.contains)) (∀ ch ∈ s, c.CharSat ch) := by
      rintro w rfl
      refine Answers.of ?_
      rw [List.all_eq_true]
      refine forall₂_congr fun ch _ => ?_
      rw [XC.CharSat]
      constructor
      · exact fun h => ⟨w, .written (by simp [VN.IsName]), List.contains_iff_mem.1 h⟩
      · rintro ⟨l, hl, hm⟩
        cases refersTo_unique (.written (by simp [VN.IsName])) hl
        exact List.contains_iff_mem.2 hm
    rcases hc with ⟨w, rfl⟩ | hc
    · exact single w rfl
    · cases c
      case single v1 =>
        obtain ⟨x, rfl⟩ := hc
        exact single [x] rfl
      all_goals exact Answers.allB fun ch _ => charAllowed e bo ch _ hc
  | .union c d, inside, t, v, a, e, bo, hp, hd, ha, hi, he, hb => by
    rw [isAllowed, XC.Sat]
    exact Answers.or (isAllowed_sat c inside t v a e bo hp.1 hd ha hi he hb) (isAllowed_sat d inside t v a e bo hp.2 hd ha hi he hb)
  | .inter c d, inside, t, v, a, e, bo, hp, hd, ha, hi, he, hb => by
    rw [isAllowed, XC.Sat]
    exact Answers.andB (isAllowed_sat c inside t v a e bo hp.1 hd ha hi he hb) fun _ => isAllowed_sat d inside t v a e bo hp.2 hd ha hi he hb
  | .allExcept c, inside, t, v, a, e, bo, hp, hd, ha, hi, he, hb => by
    rw [isAllowed, XC.Sat]
    exact Answers.not (isAllowed_sat c inside t v a e bo hp hd ha hi he hb)
  | .except c d, inside, t, v, a, e, bo, hp, hd, ha, hi, he, hb => by
    rw [isAllowed, XC.Sat]
    exact Answers.andB (isAllowed_sat c inside t v a e bo hp.1 hd ha hi he hb)
      fun _ => Answers.not (isAllowed_sat d inside t v a e bo hp.2 hd ha hi he hb)
  | .root c, inside, t, v, a, e, bo, hp, hd, ha, hi, he, hb => by
    rw [isAllowed, XC.Sat]
    exact isAllowed_sat c inside t v a e bo hp hd ha hi he hb
  | .root2 c d, inside, t, v, a, e, bo, hp, hd, ha, hi, he, hb => by
    rw [isAllowed, XC.Sat]
    rcases isAllowed_sat c inside t v a e bo hp.1 hd ha hi he hb with ⟨h1, h2⟩ | ⟨h1, h2⟩
    · rw [h1]; exact .inl ⟨rfl, .inl h2⟩
    · rw [h1]; exact (isAllowed_sat d inside t v a e bo hp.2 hd ha hi he hb).congr (by simp [h2])
  | .component c, inside, t, v, a, e, bo, hp, hd, ha, hi, he, hb => by
    obtain ⟨u, hu, hp⟩ := hp
    have hdu := NTy.isElement_distinct hd hu
    unfold NTy.IsElement at hu
    rw [NTy.denotes_stripped] at ha
    rw [NTy.direct_stripped] at hi
    cases hs : t.stripped <;> rw [hs] at hu ha hi <;> try (exact hu.elim)
    simp only at hu
    subst hu
    rename_i u cons
    have he' : e = false := by
      cases e
      · rfl
      · obtain ⟨items, cons, hs'⟩ := he rfl
        rw [hs] at hs'
        cases hs'
    subst he'
    rw [NTy.Direct] at hi
    obtain ⟨l, xs, hl, rfl, hf⟩ := ha
    have hv := written_eq hl hi.1
    subst hv
    rw [isAllowed, base_of_written hi.1, XC.Sat]
    have hdir := hi.2 l rfl
    refine (Answers.vnsAll (P := fun w => ∀ x, u.Denotes w x → c.Sat u x) fun w hw => ?_).congr ?_
    · obtain ⟨x, hx, hwx⟩ := forall2_left hf hw
      refine (isAllowed_sat c true _ w x false bo hp hdu hwx (hdir w hw) (by simp) (by simp)).congr ?_
      constructor
      · intro h y hy
        rw [denotes_unique hdu hy hwx]
        exact h
      · exact fun h => h x hwx
    · constructor
      · intro h
        refine ⟨_, xs, by unfold NTy.IsElement; rw [hs], rfl, fun x hx => ?_⟩
        obtain ⟨w, hw, hwx⟩ := forall2_right hf hx
        exact h w hw x hwx
      · rintro ⟨u, ys, hu, hy, h⟩ w hw x hwx
        unfold NTy.IsElement at hu
        rw [hs] at hu
        simp only at hu
        subst hu
        cases hy
        obtain ⟨x', hx', hwx'⟩ := forall2_left hf hw
        rw [denotes_unique hdu hwx hwx']
        exact h x' hx'
  | .components ncs, inside, t, v, a, e, bo, hp, hd, ha, hi, he, hb => by
    rw [XC.Plain] at hp
    have hd' := (NTy.distinct_stripped t).1 hd
    rw [NTy.denotes_stripped] at ha
    rw [NTy.direct_stripped] at hi
    have he' : (∀ items cons, t.stripped ≠ .enum items cons) → e = false := by
      intro h
      cases e
      · rfl
      · obtain ⟨items, cons, hs'⟩ := he rfl
        exact absurd hs' (h _ _)
    cases hs : t.stripped <;> rw [hs] at ha hi hd'
    case seq fs cons =>
      have := he' (by rw [hs]; simp)
      subst this
      rw [NTy.Direct] at hi
      obtain ⟨l, xs, hl, rfl, hn, hsub, hf⟩ := ha
      have hv := written_eq hl hi.1
      subst hv
      rw [isAllowed, base_of_written hi.1, XC.Sat]
      exact componentsAllowed_sat ncs t fs cons l xs bo hs hp.2 hd hn hf (hi.2 l rfl)
    case choice alts cons =>
      have := he' (by rw [hs]; simp)
      subst this
      rw [NTy.Direct] at hi
      rw [NTy.Distinct] at hd'
      obtain ⟨nm, w, k, x, hl, rfl, hf⟩ := ha
      have hv := written_eq hl hi.1
      subst hv
      obtain ⟨u, hk, hwx⟩ := NAlts.denotes_get hf
      rw [isAllowed, base_of_written hi.1, XC.Sat]
      exact alternativeAllowed_sat ncs t alts cons nm w k x u bo hs hp.1 hp.2 hd hd'.1 hk hwx (NAlts.direct_get (hi.2 nm w rfl) hk)
    all_goals exact absurd hp.2 (not_plain hs (by simp) (by simp) ncs)
theorem componentsAllowed_sat : ∀ (ncs : XCs) (t : NTy) (fs : NFields) (cons : List XC) (l : VNFields) (xs : List (Option AV)) (bo : Option BitOrOct),
    t.stripped = .seq fs cons → ncs.Plain t → t.Distinct → (l.toList.map (·.1)).Nodup → fs.Denotes l xs → fs.Direct l →
    Answers (componentsAllowed false bo ncs l) (ncs.Sat t (.seq xs))
  | .nil, t, fs, cons, l, xs, bo, hs, hp, hd, hn, hf, hi => by
    rw [componentsAllowed, XCs.Sat]
    exact .inl ⟨rfl, trivial⟩
  | .bare nm m rest, t, fs, cons, l, xs, bo, hs, hp, hd, hn, hf, hi => by
    obtain ⟨⟨i, u, hpart⟩, hm, hrest⟩ := hp
    unfold componentsAllowed
    rw [XCs.Sat]
    refine Answers.andB ?_ fun _ => componentsAllowed_sat rest t fs cons l xs bo hs hrest hd hn hf hi
    have hpart' := hpart
    unfold NTy.IsPart at hpart
    rw [hs] at hpart
    obtain ⟨o, hget⟩ := hpart
    have hex : (∃ i u, t.IsPart nm i u ∧ m.Sat ((AV.seq xs).part i)) ↔ m.Sat ((AV.seq xs).part i) := by
      constructor
      · rintro ⟨j, w, hj, h⟩
        rw [(NTy.isPart_unique hd hpart' hj).1]
        exact h
      · exact fun h => ⟨i, u, hpart', h⟩
    refine Answers.congr ?_ hex.symm
    rw [AV.part]
    rcases NFields.denotes_get hf hget with ⟨w, y, hw, hx, _⟩ | ⟨hw, hx⟩
    · rw [VNFields.find_of_mem hn hw, hx]
      cases m <;> simp [Mark.Sat, Answers]
    · rw [VNFields.find_of_not_mem hw, hx]
      cases m <;> simp [Mark.Sat, Answers]
  | .cons nm m c rest, t, fs, cons, l, xs, bo, hs, hp, hd, hn, hf, hi => by
    obtain ⟨⟨i, u, hpart, hpc⟩, hm, hrest⟩ := hp
    unfold componentsAllowed
    rw [XCs.Sat]
    refine Answers.andB ?_ fun _ => componentsAllowed_sat rest t fs cons l xs bo hs hrest hd hn hf hi
    have hpart' := hpart
    unfold NTy.IsPart at hpart
    rw [hs] at hpart
    obtain ⟨o, hget⟩ := hpart
    have hex : (∃ i u, t.IsPart nm i u ∧ m.Sat ((AV.seq xs).part i) ∧ ∀ x, (AV.seq xs).part i = some x → c.Sat u x) ↔
        (m.Sat ((AV.seq xs).part i) ∧ ∀ x, (AV.seq xs).part i = some x → c.Sat u x) := by
      constructor
      · rintro ⟨j, w, hj, h⟩
        obtain ⟨rfl, rfl⟩ := NTy.isPart_unique hd hpart' hj
        exact h
      · exact fun h => ⟨i, u, hpart', h⟩
    refine Answers.congr ?_ hex.symm
    rw [AV.part]
    rcases NFields.denotes_get hf hget with ⟨w, y, hw, hx, hwy⟩ | ⟨hw, hx⟩
    · have ih := isAllowed_sat c true u w y false bo hpc (NTy.isPart_distinct hd hpart') hwy (NFields.direct_get hi hget hw) (by simp) (by simp)
      rw [VNFields.find_of_mem hn hw, hx]
      cases m
      · exact ih.congr (by simp [Mark.Sat])
      · exact ih.congr (by simp [Mark.Sat])
      · exact .inr ⟨rfl, by simp [Mark.Sat]⟩
      · exact ih.congr (by simp [Mark.Sat])
    · rw [VNFields.find_of_not_mem hw, hx]
      unfold plainMark at hm
      rw [hs] at hm
      cases m <;> simp [Mark.Sat, Answers] at hm ⊢
theorem alternativeAllowed_sat : ∀ (ncs : XCs) (t : NTy) (alts : NAlts) (cons : List XC) (nm : String) (w : VN) (k : Nat) (x : AV) (u : NTy) (bo : Option BitOrOct),
    t.stripped = .choice alts cons → ncs.names.Nodup → ncs.Plain t → t.Distinct → (alts.toList.map (·.1)).Nodup → alts.toList[k]? = some (nm, u) →
    u.Denotes w x → u.Direct w → Answers (alternativeAllowed false bo ncs nm w) (ncs.Sat t (.choice k x))
  | .nil, t, alts, cons, nm, w, k, x, u, bo, hs, hnd, hp, hd, hn, hk, hwx, hi => by
    rw [alternativeAllowed, XCs.Sat]
    exact .inl ⟨rfl, trivial⟩
  | .bare n m rest, t, alts, cons, nm, w, k, x, u, bo, hs, hnd, hp, hd, hn, hk, hwx, hi => by
    rw [alternativeAllowed]
    rw [XCs.names, List.nodup_cons] at hnd
    have hp0 := hp
    obtain ⟨⟨i, u', hpart⟩, hm, hrest⟩ := hp
    have hpart' := hpart
    unfold NTy.IsPart at hpart
    rw [hs] at hpart
    simp only at hpart
    have hex : (∃ i u, t.IsPart n i u ∧ m.Sat ((AV.choice k x).part i)) ↔ m.Sat ((AV.choice k x).part i) := by
      constructor
      · rintro ⟨j, w, hj, h⟩
        rw [(NTy.isPart_unique hd hpart' hj).1]
        exact h
      · exact fun h => ⟨i, u', hpart', h⟩
    by_cases en : n = nm
    · subst en
      rw [if_pos (by simp), XCs.Sat]
      have hik := (nodup_index hn hk hpart).1
      refine Answers.of ?_
      rw [hex, AV.part, if_pos hik]
      have := XCs.sat_other hs hn hk x hnd.1 hrest
      cases m <;> simp [Mark.Sat, this]
    · rw [if_neg (by simpa using en), XCs.Sat]
      have hik : k ≠ i := by
        rintro rfl
        rw [hk] at hpart
        cases hpart
        exact en rfl
      refine (alternativeAllowed_sat rest t alts cons nm w k x u bo hs hnd.2 hrest hd hn hk hwx hi).congr ?_
      rw [hex, AV.part, if_neg hik]
      unfold plainMark at hm
      rw [hs] at hm
      cases m <;> simp [Mark.Sat] at hm ⊢
  | .cons n m c rest, t, alts, cons, nm, w, k, x, u, bo, hs, hnd, hp, hd, hn, hk, hwx, hi => by
    rw [alternativeAllowed]
    rw [XCs.names, List.nodup_cons] at hnd
    obtain ⟨⟨i, u', hpart, hpc⟩, hm, hrest⟩ := hp
    have hpart' := hpart
    unfold NTy.IsPart at hpart
    rw [hs] at hpart
    simp only at hpart
    have hex : (∃ i u, t.IsPart n i u ∧ m.Sat ((AV.choice k x).part i) ∧ ∀ y, (AV.choice k x).part i = some y → c.Sat u y) ↔
        (m.Sat ((AV.choice k x).part i) ∧ ∀ y, (AV.choice k x).part i = some y → c.Sat u' y) := by
      constructor
      · rintro ⟨j, w, hj, h⟩
        obtain ⟨rfl, rfl⟩ := NTy.isPart_unique hd hpart' hj
        exact h
      · exact fun h => ⟨i, u', hpart', h⟩
    by_cases en : n = nm
    · subst en
      rw [if_pos (by simp), XCs.Sat]
      obtain ⟨hik, huu⟩ := nodup_index hn hk hpart
      subst huu
      have ih := isAllowed_sat c true u w x false bo hpc (NTy.isPart_distinct hd hpart') hwx hi (by simp) (by simp)
      have hr := XCs.sat_other hs hn hk x hnd.1 hrest
      rw [hex, AV.part, if_pos hik]
      unfold plainMark at hm
      rw [hs] at hm
      cases m
      · exact ih.congr (by simp [Mark.Sat, hr])
      · exact absurd rfl hm
      · exact .inr ⟨rfl, by simp [Mark.Sat]⟩
      · exact ih.congr (by simp [Mark.Sat, hr])
    · rw [if_neg (by simpa using en), XCs.Sat]
      have hik : k ≠ i := by
        rintro rfl
        rw [hk] at hpart
        cases hpart
        exact en rfl
      refine (alternativeAllowed_sat rest t alts cons nm w k x u bo hs hnd.2 hrest hd hn hk hwx hi).congr ?_
      rw [hex, AV.part, if_neg hik]
      unfold plainMark at hm
      rw [hs] at hm
      cases m <;> simp [Mark.Sat] at hm ⊢
end

/-! ## References to types -/

theorem NTy.denotes_congr {t t' : NTy} (h : t.stripped = t'.stripped) (v : VN) (b : AV) : t.Denotes v b ↔ t'.Denotes v b := by
  rw [NTy.denotes_stripped t, NTy.denotes_stripped t', h]

mutual
theorem XC.sat_congr : ∀ (c : XC) (t t' : NTy) (a : AV), t.stripped = t'.stripped → (c.Sat t a ↔ c.Sat t' a)
  | .single v, t, t', a, h => by simp only [XC.Sat, NTy.denotes_congr h]
  | .range v1 v2 i j, t, t', a, h => by simp only [XC.Sat, NTy.denotes_congr h]
  | .valMax v1 i, t, t', a, h => by simp only [XC.Sat, NTy.denotes_congr h]
  | .minVal v2 j, t, t', a, h => by simp only [XC.Sat, NTy.denotes_congr h]
  | .size c, t, t', a, h => by simp only [XC.Sat]
  | .alphabet c, t, t', a, h => by simp only [XC.Sat]
  | .union c d, t, t', a, h => by rw [XC.Sat, XC.Sat, XC.sat_congr c t t' a h, XC.sat_congr d t t' a h]
  | .inter c d, t, t', a, h => by rw [XC.Sat, XC.Sat, XC.sat_congr c t t' a h, XC.sat_congr d t t' a h]
  | .allExcept c, t, t', a, h => by rw [XC.Sat, XC.Sat, XC.sat_congr c t t' a h]
  | .except c d, t, t', a, h => by rw [XC.Sat, XC.Sat, XC.sat_congr c t t' a h, XC.sat_congr d t t' a h]
  | .root c, t, t', a, h => by rw [XC.Sat, XC.Sat, XC.sat_congr c t t' a h]
  | .root2 c d, t, t', a, h => by rw [XC.Sat, XC.Sat, XC.sat_congr c t t' a h, XC.sat_congr d t t' a h]
  | .component c, t, t', a, h => by
    have : ∀ e, t.IsElement e ↔ t'.IsElement e := fun e => by unfold NTy.IsElement; rw [h]
    simp only [XC.Sat, this]
  | .components ncs, t, t', a, h => by rw [XC.Sat, XC.Sat, XCs.sat_congr ncs t t' a h]
theorem XCs.sat_congr : ∀ (ncs : XCs) (t t' : NTy) (a : AV), t.stripped = t'.stripped → (ncs.Sat t a ↔ ncs.Sat t' a)
  | .nil, t, t', a, h => by simp only [XCs.Sat]
  | .bare nm m rest, t, t', a, h => by
    have : ∀ i u, t.IsPart nm i u ↔ t'.IsPart nm i u := fun i u => by unfold NTy.IsPart; rw [h]
    rw [XCs.Sat, XCs.Sat, XCs.sat_congr rest t t' a h]
    simp only [this]
  | .cons nm m c rest, t, t', a, h => by
    have : ∀ i u, t.IsPart nm i u ↔ t'.IsPart nm i u := fun i u => by unfold NTy.IsPart; rw [h]
    rw [XCs.Sat, XCs.Sat, XCs.sat_congr rest t t' a h]
    simp only [this]
end

mutual
theorem XC.plain_congr : ∀ (c : XC) (b : Bool) (t t' : NTy), t.stripped = t'.stripped → (c.Plain b t ↔ c.Plain b t')
  | .single v, b, t, t', h => by simp only [XC.Plain, plainSingle, h]
  | .range v1 v2 i j, b, t, t', h => by simp only [XC.Plain, plainBound, h]
  | .valMax v1 i, b, t, t', h => by simp only [XC.Plain, plainBound, h]
  | .minVal v2 j, b, t, t', h => by simp only [XC.Plain, plainBound, h]
  | .size c, b, t, t', h => by simp only [XC.Plain, plainSize, h]
  | .alphabet c, b, t, t', h => by simp only [XC.Plain, h]
  | .union c d, b, t, t', h => by rw [XC.Plain, XC.Plain, XC.plain_congr c b t t' h, XC.plain_congr d b t t' h]
  | .inter c d, b, t, t', h => by rw [XC.Plain, XC.Plain, XC.plain_congr c b t t' h, XC.plain_congr d b t t' h]
  | .allExcept c, b, t, t', h => by rw [XC.Plain, XC.Plain, XC.plain_congr c b t t' h]
  | .except c d, b, t, t', h => by rw [XC.Plain, XC.Plain, XC.plain_congr c b t t' h, XC.plain_congr d b t t' h]
  | .root c, b, t, t', h => by rw [XC.Plain, XC.Plain, XC.plain_congr c b t t' h]
  | .root2 c d, b, t, t', h => by rw [XC.Plain, XC.Plain, XC.plain_congr c b t t' h, XC.plain_congr d b t t' h]
  | .component c, b, t, t', h => by
    have : ∀ e, t.IsElement e ↔ t'.IsElement e := fun e => by unfold NTy.IsElement; rw [h]
    simp only [XC.Plain, this]
  | .components ncs, b, t, t', h => by rw [XC.Plain, XC.Plain, XCs.plain_congr ncs t t' h]
theorem XCs.plain_congr : ∀ (ncs : XCs) (t t' : NTy), t.stripped = t'.stripped → (ncs.Plain t ↔ ncs.Plain t')
  | .nil, t, t', h => by simp only [XCs.Plain, h]
  | .bare nm m rest, t, t', h => by
    have : ∀ i u, t.IsPart nm i u ↔ t'.IsPart nm i u := fun i u => by unfold NTy.IsPart; rw [h]
    rw [XCs.Plain, XCs.Plain, XCs.plain_congr rest t t' h]
    simp only [this, plainMark, h]
  | .cons nm m c rest, t, t', h => by
    have : ∀ i u, t.IsPart nm i u ↔ t'.IsPart nm i u := fun i u => by unfold NTy.IsPart; rw [h]
    rw [XCs.Plain, XCs.Plain, XCs.plain_congr rest t t' h]
    simp only [this, plainMark, h]
end

/-! ## The check of a value -/

theorem allAllowed {t : NTy} {cons acc : List XC} {v : VN} {a : AV} {e : Bool} {bo : Option BitOrOct} (hp : ∀ c ∈ cons, c.Plain false t)
    (hc : ∀ c ∈ acc, c.Plain false t) (hd : t.Distinct) (ha : t.Denotes v a) (hi : t.Direct v) (he : e = true → t.IsEnum) (hb : bo = t.bitOrOct) :
    Answers (allB (fun c => isAllowed e bo c v) (cons ++ acc)) ((∀ c ∈ cons, c.Sat t a) ∧ ∀ c ∈ acc, c.Sat t a) := by
  refine (Answers.allB (P := fun c => c.Sat t a) fun c hm => ?_).congr ?_
  · refine isAllowed_sat c false t v a e bo ?_ hd ha hi he fun _ => hb
    rcases List.mem_append.1 hm with h | h
    · exact hp c h
    · exact hc c h
  · exact List.forall_mem_append

theorem NFields.sat_iff : ∀ (fs : NFields) (xs : List (Option AV)), fs.Sat xs ↔
    ∀ (i : Nat) (nm : String) (o : NOpt) (u : NTy) (y : AV), fs.toList[i]? = some (nm, o, u) → xs[i]? = some (some y) → u.Sat y
  | .nil, xs => by simp [NFields.Sat, NFields.toList]
  | .cons n o t rest, [] => by simp [NFields.Sat]
  | .cons n o t rest, x :: xs => by
    rw [NFields.Sat, NFields.sat_iff rest xs]
    constructor
    · rintro ⟨h1, h2⟩ i nm o' u y hg hy
      rw [NFields.toList] at hg
      cases i with
      | zero =>
        simp only [List.getElem?_cons_zero, Option.some.injEq, Prod.mk.injEq] at hg hy
        obtain ⟨_, _, rfl⟩ := hg
        exact h1 y hy
      | succ i => exact h2 i nm o' u y (by simpa using hg) (by simpa using hy)
    · intro h
      refine ⟨fun y hy => h 0 n o t y (by simp [NFields.toList]) (by simp [hy]), fun i nm o' u y hg hy => ?_⟩
      exact h (i + 1) nm o' u y (by simpa [NFields.toList] using hg) (by simpa using hy)

theorem NAlts.sat_get : ∀ (alts : NAlts) (i : Nat) (nm : String) (u : NTy) (x : AV), alts.toList[i]? = some (nm, u) → (alts.Sat i x ↔ u.Sat x)
  | .nil, i, nm, u, x, h => by simp [NAlts.toList] at h
  | .cons n t rest, 0, nm, u, x, h => by
    simp only [NAlts.toList, List.getElem?_cons_zero, Option.some.injEq, Prod.mk.injEq] at h
    obtain ⟨_, rfl⟩ := h
    rw [NAlts.Sat]
  | .cons n t rest, i + 1, nm, u, x, h => by
    rw [NAlts.Sat]
    exact NAlts.sat_get rest i nm u x (by simpa [NAlts.toList] using h)

mutual
theorem conforms_sat : ∀ (t : NTy) (acc : List XC) (v : VN) (a : AV), t.Plain → t.Distinct → t.Denotes v a → t.Direct v → (∀ c ∈ acc, c.Plain false t) →
    Answers (conforms t acc v) (t.Sat a ∧ ∀ c ∈ acc, c.Sat t a)
  | .ref md tas t cons, acc, v, a, hp, hd, ha, hi, hc => by
    rw [conforms, NTy.Sat]
    rw [NTy.Plain] at hp
    have hst : (NTy.ref md tas t cons).stripped = t.stripped := rfl
    refine (conforms_sat t (cons ++ acc) v a hp.1 hd ha hi ?_).congr ?_
    · intro c hm
      rw [← XC.plain_congr c false _ _ hst]
      rcases List.mem_append.1 hm with h | h
      · exact hp.2 c h
      · exact hc c h
    · rw [List.forall_mem_append, and_assoc]
      simp only [XC.sat_congr _ _ _ a hst]
  | .int cons, acc, v, a, hp, hd, ha, hi, hc => by
    rw [conforms, NTy.Sat]
    exact allAllowed hp hc hd ha hi (by simp) rfl
  | .real cons, acc, v, a, hp, hd, ha, hi, hc => by
    rw [conforms, NTy.Sat]
    exact allAllowed hp hc hd ha hi (by simp) rfl
  | .bool cons, acc, v, a, hp, hd, ha, hi, hc => by
    rw [conforms, NTy.Sat]
    exact allAllowed hp hc hd ha hi (by simp) rfl
  | .null cons, acc, v, a, hp, hd, ha, hi, hc => by
    rw [conforms, NTy.Sat]
    exact allAllowed hp hc hd ha hi (by simp) rfl
  | .str cons, acc, v, a, hp, hd, ha, hi, hc => by
    rw [conforms, NTy.Sat]
    exact allAllowed hp hc hd ha hi (by simp) rfl
  | .oid cons, acc, v, a, hp, hd, ha, hi, hc => by
    rw [conforms, NTy.Sat]
    exact allAllowed hp hc hd ha hi (by simp) rfl
  | .octets cons, acc, v, a, hp, hd, ha, hi, hc => by
    rw [conforms, NTy.Sat]
    exact allAllowed hp hc hd ha hi (by simp) rfl
  | .bits cons, acc, v, a, hp, hd, ha, hi, hc => by
    rw [conforms, NTy.Sat]
    exact allAllowed hp hc hd ha hi (by simp) rfl
  | .enum items cons, acc, v, a, hp, hd, ha, hi, hc => by
    rw [conforms, NTy.Sat]
    cases v.name with
    | none => exact allAllowed hp hc hd ha hi (by simp) rfl
    | some nm => exact allAllowed hp hc hd ha hi (fun _ => ⟨items, cons, rfl⟩) rfl
  | .seqOf t cons, acc, v, a, hp, hd, ha, hi, hc => by
    rw [NTy.Plain] at hp
    have h1 := allAllowed (e := false) (bo := none) hp.1 hc hd ha hi (by simp) rfl
    rw [NTy.Direct] at hi
    obtain ⟨l, xs, hl, rfl, hf⟩ := ha
    have hv := written_eq hl hi.1
    subst hv
    have hdir := hi.2 l rfl
    rw [NTy.Distinct] at hd
    rw [conforms, NTy.Sat]
    refine (Answers.andB h1 fun _ => (Answers.vnsAll (P := fun w => ∀ x, t.Denotes w x → t.Sat x) fun w hw => ?_)).congr ?_
    · obtain ⟨x, hx, hwx⟩ := forall2_left hf hw
      refine (conforms_sat t [] w x hp.2 hd hwx (hdir w hw) (by simp)).congr ?_
      constructor
      · intro h y hy
        rw [denotes_unique hd hy hwx]
        exact h.1
      · exact fun h => ⟨h x hwx, by simp⟩
    · constructor
      · rintro ⟨⟨g1, g2⟩, g3⟩
        refine ⟨⟨g1, xs, rfl, fun x hx => ?_⟩, g2⟩
        obtain ⟨w, hw, hwx⟩ := forall2_right hf hx
        exact g3 w hw x hwx
      · rintro ⟨⟨g1, ys, hy, g3⟩, g2⟩
        cases hy
        refine ⟨⟨g1, g2⟩, fun w hw x hwx => ?_⟩
        obtain ⟨x', hx', hwx'⟩ := forall2_left hf hw
        rw [denotes_unique hd hwx hwx']
        exact g3 x' hx'
  | .seq fs cons, acc, v, a, hp, hd, ha, hi, hc => by
    rw [NTy.Plain] at hp
    have h1 := allAllowed (e := false) (bo := none) hp.1 hc hd ha hi (by simp) rfl
    rw [NTy.Direct] at hi
    obtain ⟨l, xs, hl, rfl, hn, hsub, hf⟩ := ha
    have hv := written_eq hl hi.1
    subst hv
    have hdir := hi.2 l rfl
    rw [NTy.Distinct] at hd
    rw [conforms, NTy.Sat]
    refine (Answers.andB h1 fun _ => (Answers.fieldsAll (P := fun p => ∀ (i : Nat) (o : NOpt) (u : NTy) (y : AV), fs.toList[i]? = some (p.1, o, u) → u.Denotes p.2 y → u.Sat y)
      fun p hw => ?_)).congr ?_
    · obtain ⟨i, hg⟩ := List.getElem?_of_mem (List.mem_map.1 (hsub p hw)).choose_spec.1
      have hnm := (List.mem_map.1 (hsub p hw)).choose_spec.2
      generalize (List.mem_map.1 (hsub p hw)).choose = q at hg hnm
      obtain ⟨n, o, u⟩ := q
      simp only at hnm
      subst hnm
      rcases NFields.denotes_get hf hg with ⟨w, y, hw', _, hy⟩ | ⟨hw', _⟩
      · have : w = p.2 := nodup_fst_unique hn hw' hw
        subst this
        refine (conformsField_sat fs i p.1 o u p.2 y hp.2 hd.2 hd.1 hg hy (NFields.direct_get hdir hg hw)).congr ?_
        constructor
        · intro h j o' u' y' hj hy'
          obtain ⟨rfl, e⟩ := nodup_index hd.1 hg hj
          cases e
          rw [denotes_unique (NFields.distinct_get hd.2 hg) hy' hy]
          exact h
        · exact fun h => h i o u y hg hy
      · exact absurd (List.mem_map.2 ⟨p, hw, rfl⟩) hw'
    · constructor
      · rintro ⟨⟨g1, g2⟩, g3⟩
        refine ⟨⟨g1, xs, rfl, (NFields.sat_iff fs xs).2 fun i nm o u y hg hy => ?_⟩, g2⟩
        rcases NFields.denotes_get hf hg with ⟨w, y', hw', hx, hy'⟩ | ⟨_, hx⟩
        · rw [hy] at hx
          cases hx
          exact g3 (nm, w) hw' i o u y hg hy'
        · rw [hy] at hx
          cases hx
      · rintro ⟨⟨g1, ys, hy, g3⟩, g2⟩
        cases hy
        refine ⟨⟨g1, g2⟩, fun p hw i o u y hg hy => ?_⟩
        rcases NFields.denotes_get hf hg with ⟨w, y', hw', hx, hy'⟩ | ⟨hw', _⟩
        · have : w = p.2 := nodup_fst_unique hn hw' hw
          subst this
          rw [denotes_unique (NFields.distinct_get hd.2 hg) hy hy']
          exact (NFields.sat_iff fs xs).1 g3 i p.1 o u y' hg hx
        · exact absurd (List.mem_map.2 ⟨p, hw, rfl⟩) hw'
  | .choice alts cons, acc, v, a, hp, hd, ha, hi, hc => by
    rw [NTy.Plain] at hp
    have h1 := allAllowed (e := false) (bo := none) hp.1 hc hd ha hi (by simp) rfl
    rw [NTy.Direct] at hi
    obtain ⟨nm, w, k, x, hl, rfl, hf⟩ := ha
    have hv := written_eq hl hi.1
    subst hv
    obtain ⟨u, hk, hwx⟩ := NAlts.denotes_get hf
    have hdir := NAlts.direct_get (hi.2 nm w rfl) hk
    rw [NTy.Distinct] at hd
    rw [conforms, NTy.Sat]
    refine (Answers.andB h1 fun _ => conformsAlt_sat alts k nm u w x hp.2 hd.2 hd.1 hk hwx hdir).congr ?_
    rw [← NAlts.sat_get alts k nm u x hk]
    constructor
    · rintro ⟨⟨g1, g2⟩, g3⟩
      exact ⟨⟨g1, k, x, rfl, g3⟩, g2⟩
    · rintro ⟨⟨g1, _, _, e, g3⟩, g2⟩
      cases e
      exact ⟨⟨g1, g2⟩, g3⟩
theorem conformsField_sat : ∀ (fs : NFields) (i : Nat) (nm : String) (o : NOpt) (u : NTy) (w : VN) (y : AV), fs.Plain → fs.Distinct →
    (fs.toList.map (·.1)).Nodup → fs.toList[i]? = some (nm, o, u) → u.Denotes w y → u.Direct w → Answers (conformsField fs nm w) (u.Sat y)
  | .nil, i, nm, o, u, w, y, hp, hd, hn, hg, hy, hi => by simp [NFields.toList] at hg
  | .cons n o' t rest, 0, nm, o, u, w, y, hp, hd, hn, hg, hy, hi => by
    simp only [NFields.toList, List.getElem?_cons_zero, Option.some.injEq, Prod.mk.injEq] at hg
    obtain ⟨rfl, rfl, rfl⟩ := hg
    rw [conformsField, if_pos (by simp)]
    exact (conforms_sat t [] w y hp.1 hd.1 hy hi (by simp)).congr (by simp)
  | .cons n o' t rest, i + 1, nm, o, u, w, y, hp, hd, hn, hg, hy, hi => by
    rw [NFields.toList, List.getElem?_cons_succ] at hg
    rw [NFields.toList, List.map_cons, List.nodup_cons] at hn
    have hne : n ≠ nm := by
      rintro rfl
      exact hn.1 (List.mem_map.2 ⟨_, List.mem_of_getElem? hg, rfl⟩)
    rw [conformsField, if_neg (by simpa using hne)]
    exact conformsField_sat rest i nm o u w y hp.2 hd.2 hn.2 hg hy hi
theorem conformsAlt_sat : ∀ (alts : NAlts) (i : Nat) (nm : String) (u : NTy) (w : VN) (y : AV), alts.Plain → alts.Distinct →
    (alts.toList.map (·.1)).Nodup → alts.toList[i]? = some (nm, u) → u.Denotes w y → u.Direct w → Answers (conformsAlt alts nm w) (u.Sat y)
  | .nil, i, nm, u, w, y, hp, hd, hn, hg, hy, hi => by simp [NAlts.toList] at hg
  | .cons n t rest, 0, nm, u, w, y, hp, hd, hn, hg, hy, hi => by
    simp only [NAlts.toList, List.getElem?_cons_zero, Option.some.injEq, Prod.mk.injEq] at hg
    obtain ⟨rfl, rfl⟩ := hg
    rw [conformsAlt, if_pos (by simp)]
    exact (conforms_sat t [] w y hp.1 hd.1 hy hi (by simp)).congr (by simp)
  | .cons n t rest, i + 1, nm, u, w, y, hp, hd, hn, hg, hy, hi => by
    rw [NAlts.toList, List.getElem?_cons_succ] at hg
    rw [NAlts.toList, List.map_cons, List.nodup_cons] at hn
    have hne : n ≠ nm := by
      rintro rfl
      exact hn.1 (List.mem_map.2 ⟨_, List.mem_of_getElem? hg, rfl⟩)
    rw [conformsAlt, if_neg (by simpa using hne)]
    exact conformsAlt_sat rest i nm u w y hp.2 hd.2 hn.2 hg hy hi
end

end Asn1
