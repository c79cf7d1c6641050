import Verif.Spec.Constraint
/-!
# Proofs about effective ranges, alphabets and validity tests
-/
namespace Asn1

/-- The range has no lower end but an upper one. -/
def Rng.IsNeg : Rng → Prop
  | .negInf _ => True
  | _ => False

theorem uperUnion_contains (r1 r2 : Rng) (v : Int) (h : r1.contains v ∨ r2.contains v) :
    (uperUnion r1 r2).contains v := by
  cases r1 <;> cases r2 <;> simp only [uperUnion, Rng.contains] at * <;> first | trivial | omega

theorem uperUnion_notNeg (r1 r2 : Rng) (h1 : ¬ r1.IsNeg) (h2 : ¬ r2.IsNeg) : ¬ (uperUnion r1 r2).IsNeg := by
  cases r1 <;> cases r2 <;> simp_all [uperUnion, Rng.IsNeg]

theorem uperIntersection_contains (r1 r2 r : Rng) (v : Int) (hn1 : ¬ r1.IsNeg) (hn2 : ¬ r2.IsNeg)
    (hr : uperIntersection r1 r2 = some r) (h1 : r1.contains v) (h2 : r2.contains v) : r.contains v := by
  cases r1 <;> cases r2 <;> first
    | exact absurd trivial hn1
    | exact absurd trivial hn2
    | skip
  all_goals simp only [uperIntersection, interPosConcrete] at hr
  all_goals repeat' split at hr
  all_goals first
    | cases hr; done
    | injection hr with hr; subst hr; first | exact h1 | exact h2 | (simp only [Rng.contains] at *; omega)

theorem uperIntersection_notNeg (r1 r2 r : Rng) (hn1 : ¬ r1.IsNeg) (hn2 : ¬ r2.IsNeg)
    (hr : uperIntersection r1 r2 = some r) : ¬ r.IsNeg := by
  cases r1 <;> cases r2 <;> first
    | exact absurd trivial hn1
    | exact absurd trivial hn2
    | skip
  all_goals simp only [uperIntersection, interPosConcrete] at hr
  all_goals repeat' split at hr
  all_goals first
    | cases hr; done
    | injection hr with hr; subst hr; exact fun h => h

theorem uperIntersection_full (r : Rng) : uperIntersection .full r = some r := by cases r <;> rfl

section
variable {L V : Type} {leafR : L → Option Rng} {leafSat : L → V → Prop} {proj : V → Int}
  {U inLeaf notMin : L → Prop}

theorem range_notNeg (hnot : ∀ l r, notMin l → leafR l = some r → ¬ r.IsNeg) :
    ∀ (c : Con L) (r : Rng), c.Leaves notMin → c.range leafR = some r → ¬ r.IsNeg
  | .union c d, r, hl, hr => by
    simp only [Con.range, Option.bind_eq_bind, Option.bind_eq_some_iff] at hr
    obtain ⟨r1, h1, r2, h2, hr⟩ := hr
    injection hr with hr; subst hr
    exact uperUnion_notNeg _ _ (range_notNeg hnot c r1 hl.1 h1) (range_notNeg hnot d r2 hl.2 h2)
  | .inter c d, r, hl, hr => by
    simp only [Con.range, Option.bind_eq_bind, Option.bind_eq_some_iff] at hr
    obtain ⟨r1, h1, r2, h2, hr⟩ := hr
    exact uperIntersection_notNeg _ _ _ (range_notNeg hnot c r1 hl.1 h1) (range_notNeg hnot d r2 hl.2 h2) hr
  | .allExcept c, r, hl, hr => by
    simp only [Con.range, Option.bind_eq_bind, Option.bind_eq_some_iff] at hr
    obtain ⟨r1, h1, hr⟩ := hr
    injection hr with hr; subst hr; exact fun h => h
  | .except c d, r, hl, hr => by
    simp only [Con.range, Option.bind_eq_bind, Option.bind_eq_some_iff] at hr
    obtain ⟨r1, h1, r2, h2, hr⟩ := hr
    injection hr with hr; subst hr
    exact range_notNeg hnot c r1 hl.1 h1
  | .root c, r, hl, hr => by
    simp only [Con.range, Option.bind_eq_bind, Option.bind_eq_some_iff] at hr
    obtain ⟨r1, h1, hr⟩ := hr
    injection hr with hr; subst hr; exact fun h => h
  | .root2 c d, r, hl, hr => by
    simp only [Con.range, Option.bind_eq_bind, Option.bind_eq_some_iff] at hr
    obtain ⟨r1, h1, r2, h2, hr⟩ := hr
    injection hr with hr; subst hr; exact fun h => h
  | .leaf l, r, hl, hr => hnot l r hl hr

theorem range_contains_notMin (hnot : ∀ l r, notMin l → leafR l = some r → ¬ r.IsNeg)
    (hleaf : ∀ l r v, U l → notMin l → leafR l = some r → leafSat l v → r.contains (proj v)) :
    ∀ (c : Con L) (r : Rng) (v : V), c.Leaves U → c.Leaves notMin → c.range leafR = some r → c.Sat leafSat v →
      r.contains (proj v)
  | .union c d, r, v, hu, hl, hr, hs => by
    simp only [Con.range, Option.bind_eq_bind, Option.bind_eq_some_iff] at hr
    obtain ⟨r1, h1, r2, h2, hr⟩ := hr
    injection hr with hr; subst hr
    apply uperUnion_contains
    rcases hs with hs | hs
    · exact .inl (range_contains_notMin hnot hleaf c r1 v hu.1 hl.1 h1 hs)
    · exact .inr (range_contains_notMin hnot hleaf d r2 v hu.2 hl.2 h2 hs)
  | .inter c d, r, v, hu, hl, hr, hs => by
    simp only [Con.range, Option.bind_eq_bind, Option.bind_eq_some_iff] at hr
    obtain ⟨r1, h1, r2, h2, hr⟩ := hr
    exact uperIntersection_contains _ _ _ _ (range_notNeg hnot c r1 hl.1 h1) (range_notNeg hnot d r2 hl.2 h2) hr
      (range_contains_notMin hnot hleaf c r1 v hu.1 hl.1 h1 hs.1)
      (range_contains_notMin hnot hleaf d r2 v hu.2 hl.2 h2 hs.2)
  | .allExcept c, r, v, hu, hl, hr, hs => by
    simp only [Con.range, Option.bind_eq_bind, Option.bind_eq_some_iff] at hr
    obtain ⟨r1, h1, hr⟩ := hr
    injection hr with hr; subst hr; trivial
  | .except c d, r, v, hu, hl, hr, hs => by
    simp only [Con.range, Option.bind_eq_bind, Option.bind_eq_some_iff] at hr
    obtain ⟨r1, h1, r2, h2, hr⟩ := hr
    injection hr with hr; subst hr
    exact range_contains_notMin hnot hleaf c r1 v hu.1 hl.1 h1 hs.1
  | .root c, r, v, hu, hl, hr, hs => by
    simp only [Con.range, Option.bind_eq_bind, Option.bind_eq_some_iff] at hr
    obtain ⟨r1, h1, hr⟩ := hr
    injection hr with hr; subst hr; trivial
  | .root2 c d, r, v, hu, hl, hr, hs => by
    simp only [Con.range, Option.bind_eq_bind, Option.bind_eq_some_iff] at hr
    obtain ⟨r1, h1, r2, h2, hr⟩ := hr
    injection hr with hr; subst hr; trivial
  | .leaf l, r, v, hu, hl, hr, hs => hleaf l r v hu hl hr hs

theorem range_contains (hnot : ∀ l r, notMin l → leafR l = some r → ¬ r.IsNeg)
    (hleaf : ∀ l r v, U l → notMin l → leafR l = some r → leafSat l v → r.contains (proj v))
    (hin : ∀ l r v, U l → inLeaf l → leafR l = some r → leafSat l v → r.contains (proj v)) :
    ∀ (c : Con L) (r : Rng) (v : V), c.Leaves U → c.NoMinInter inLeaf notMin → c.range leafR = some r →
      c.Sat leafSat v → r.contains (proj v)
  | .union c d, r, v, hu, hl, hr, hs => by
    simp only [Con.range, Option.bind_eq_bind, Option.bind_eq_some_iff] at hr
    obtain ⟨r1, h1, r2, h2, hr⟩ := hr
    injection hr with hr; subst hr
    apply uperUnion_contains
    rcases hs with hs | hs
    · exact .inl (range_contains hnot hleaf hin c r1 v hu.1 hl.1 h1 hs)
    · exact .inr (range_contains hnot hleaf hin d r2 v hu.2 hl.2 h2 hs)
  | .inter c d, r, v, hu, hl, hr, hs => by
    exact range_contains_notMin hnot hleaf (.inter c d) r v hu hl hr hs
  | .allExcept c, r, v, hu, hl, hr, hs => by
    simp only [Con.range, Option.bind_eq_bind, Option.bind_eq_some_iff] at hr
    obtain ⟨r1, h1, hr⟩ := hr
    injection hr with hr; subst hr; trivial
  | .except c d, r, v, hu, hl, hr, hs => by
    simp only [Con.range, Option.bind_eq_bind, Option.bind_eq_some_iff] at hr
    obtain ⟨r1, h1, r2, h2, hr⟩ := hr
    injection hr with hr; subst hr
    exact range_contains hnot hleaf hin c r1 v hu.1 hl h1 hs.1
  | .root c, r, v, hu, hl, hr, hs => by
    simp only [Con.range, Option.bind_eq_bind, Option.bind_eq_some_iff] at hr
    obtain ⟨r1, h1, hr⟩ := hr
    injection hr with hr; subst hr; trivial
  | .root2 c d, r, v, hu, hl, hr, hs => by
    simp only [Con.range, Option.bind_eq_bind, Option.bind_eq_some_iff] at hr
    obtain ⟨r1, h1, r2, h2, hr⟩ := hr
    injection hr with hr; subst hr; trivial
  | .leaf l, r, v, hu, hl, hr, hs => hin l r v hu hl hr hs

theorem serialRange_contains (hnot : ∀ l r, notMin l → leafR l = some r → ¬ r.IsNeg)
    (hleaf : ∀ l r v, U l → notMin l → leafR l = some r → leafSat l v → r.contains (proj v)) :
    ∀ (cons : List (Con L)) (s r : Rng) (v : V), (∀ c ∈ cons, c.Leaves U) → (∀ c ∈ cons, c.Leaves notMin) →
      ¬ s.IsNeg → s.contains (proj v) → serialRange leafR s cons = some r → (∀ c ∈ cons, c.Sat leafSat v) →
      r.contains (proj v)
  | [], s, r, v, _, _, _, hs, hr, _ => by
    injection hr with hr; subst hr; exact hs
  | c :: rest, s, r, v, hu, hl, hn, hs, hr, hsat => by
    simp only [serialRange, Option.bind_eq_bind, Option.bind_eq_some_iff] at hr
    obtain ⟨r1, h1, s', h2, hr⟩ := hr
    have hc : c ∈ c :: rest := List.mem_cons_self
    have n1 := range_notNeg hnot c r1 (hl c hc) h1
    exact serialRange_contains hnot hleaf rest s' r v (fun x hx => hu x (List.mem_cons_of_mem _ hx))
      (fun x hx => hl x (List.mem_cons_of_mem _ hx)) (uperIntersection_notNeg _ _ _ hn n1 h2)
      (uperIntersection_contains _ _ _ _ hn n1 h2 hs
        (range_contains_notMin hnot hleaf c r1 v (hu c hc) (hl c hc) h1 (hsat c hc)))
      hr (fun x hx => hsat x (List.mem_cons_of_mem _ hx))

theorem serial_contains (hnot : ∀ l r, notMin l → leafR l = some r → ¬ r.IsNeg)
    (hleaf : ∀ l r v, U l → notMin l → leafR l = some r → leafSat l v → r.contains (proj v))
    (hin : ∀ l r v, U l → inLeaf l → leafR l = some r → leafSat l v → r.contains (proj v))
    (cons : List (Con L)) (r : Rng) (v : V) (hu : ∀ c ∈ cons, c.Leaves U)
    (hm : SerialNoMin inLeaf notMin cons)
    (hr : serialRange leafR .full cons = some r) (hs : ∀ c ∈ cons, c.Sat leafSat v) : r.contains (proj v) := by
  rcases hm with ⟨c, rfl, hc⟩ | hm
  · simp only [serialRange, Option.bind_eq_bind, Option.bind_eq_some_iff, uperIntersection_full] at hr
    obtain ⟨r1, h1, r2, h2, hr⟩ := hr
    injection h2 with h2; subst h2
    injection hr with hr; subst hr
    exact range_contains hnot hleaf hin c _ v (hu c List.mem_cons_self) hc h1 (hs c List.mem_cons_self)
  · exact serialRange_contains hnot hleaf cons .full r v hu hm (fun h => h) trivial hr hs

end

/-! ### Leaves -/

theorem rleaf_notNeg (next prev : Int → Int) (l : RLeaf) (r : Rng) (h : l.NotMin)
    (hr : some (l.rng next prev) = some r) : ¬ r.IsNeg := by
  injection hr with hr; subst hr
  cases l <;> first | exact fun h => h | exact absurd h (fun h => h)

theorem rleaf_contains_int (l : RLeaf) (r : Rng) (v : Int)
    (hr : some (l.rng (· + 1) (· - 1)) = some r) (hs : l.Sat v) : r.contains v := by
  injection hr with hr; subst hr
  cases l <;> simp only [RLeaf.rng, RLeaf.Sat, Rng.contains] at * <;> (repeat' split at hs) <;>
    simp_all <;> omega

theorem rleaf_contains_u32 (l : RLeaf) (r : Rng) (v : Nat) (hu : l.U32)
    (hr : some (l.rng nextU32 prevU32) = some r) (hs : l.Sat (v : Int)) : r.contains (v : Int) := by
  injection hr with hr; subst hr
  cases l with
  | single w => simp only [RLeaf.rng, RLeaf.Sat, Rng.contains] at *; omega
  | range v1 v2 i j =>
    simp only [RLeaf.rng, RLeaf.Sat, Rng.contains, RLeaf.U32] at *
    cases i <;> cases j <;> simp only [nextU32, prevU32, Bool.false_eq_true, if_false, if_true] at * <;> omega
  | valMax v1 i =>
    simp only [RLeaf.rng, RLeaf.Sat, Rng.contains, RLeaf.U32] at *
    cases i <;> simp only [nextU32, prevU32, Bool.false_eq_true, if_false, if_true] at * <;> omega
  | minVal v2 j =>
    simp only [RLeaf.rng, RLeaf.Sat, Rng.contains, RLeaf.U32] at *
    cases j <;> simp only [nextU32, prevU32, Bool.false_eq_true, if_false, if_true] at * <;> omega

theorem leaves_mono {L : Type} {P Q : L → Prop} (h : ∀ l, P l → Q l) : ∀ (c : Con L), c.Leaves P → c.Leaves Q
  | .union c d, hl => ⟨leaves_mono h c hl.1, leaves_mono h d hl.2⟩
  | .inter c d, hl => ⟨leaves_mono h c hl.1, leaves_mono h d hl.2⟩
  | .allExcept c, hl => leaves_mono h c hl
  | .except c d, hl => ⟨leaves_mono h c hl.1, leaves_mono h d hl.2⟩
  | .root c, hl => leaves_mono h c hl
  | .root2 c d, hl => ⟨leaves_mono h c hl.1, leaves_mono h d hl.2⟩
  | .leaf l, hl => h l hl

theorem leaves_true {L : Type} : ∀ (c : Con L), c.Leaves (fun _ => True)
  | .union c d => ⟨leaves_true c, leaves_true d⟩
  | .inter c d => ⟨leaves_true c, leaves_true d⟩
  | .allExcept c => leaves_true c
  | .except c d => ⟨leaves_true c, leaves_true d⟩
  | .root c => leaves_true c
  | .root2 c d => ⟨leaves_true c, leaves_true d⟩
  | .leaf _ => trivial

theorem intRange_contains (cons : List (Con RLeaf)) (r : Rng) (v : Int)
    (hm : SerialNoMin (fun _ => True) RLeaf.NotMin cons)
    (hr : intRange cons = some r) (hs : IntSat cons v) : r.contains v :=
  serial_contains (U := fun _ => True) (proj := fun v : Int => v)
    (fun l r => rleaf_notNeg _ _ l r) (fun l r v _ _ => rleaf_contains_int l r v)
    (fun l r v _ _ => rleaf_contains_int l r v) cons r v (fun c _ => leaves_true c) hm hr hs

theorem rcon_contains_u32 (c : Con RLeaf) (r : Rng) (v : Nat) (hu : c.Leaves RLeaf.U32)
    (hm : c.NoMinInter (fun _ => True) RLeaf.NotMin)
    (hr : c.range (fun l => some (l.rng nextU32 prevU32)) = some r) (hs : c.Sat RLeaf.Sat (v : Int)) :
    r.contains (v : Int) := by
  refine range_contains (V := Nat) (leafSat := fun l (n : Nat) => l.Sat (n : Int)) (proj := fun n : Nat => (n : Int))
    (U := RLeaf.U32) (fun l r => rleaf_notNeg _ _ l r) (fun l r v hu _ => rleaf_contains_u32 l r v hu)
    (fun l r v hu _ => rleaf_contains_u32 l r v hu) c r v hu hm hr ?_
  have : ∀ c : Con RLeaf, c.Sat (fun l (n : Nat) => l.Sat (n : Int)) v ↔ c.Sat RLeaf.Sat (v : Int) := by
    intro c
    induction c with
    | union c d h1 h2 => simp only [Con.Sat, h1, h2]
    | inter c d h1 h2 => simp only [Con.Sat, h1, h2]
    | allExcept c h => simp only [Con.Sat, h]
    | except c d h1 h2 => simp only [Con.Sat, h1, h2]
    | root c h => simp only [Con.Sat, h]
    | root2 c d h1 h2 => simp only [Con.Sat, h1, h2]
    | leaf l => simp only [Con.Sat]
  exact (this c).2 hs

theorem noMinInter_of_leaves : ∀ (c : Con RLeaf), c.Leaves RLeaf.NotMin → c.NoMinInter (fun _ => True) RLeaf.NotMin
  | .union c d, h => ⟨noMinInter_of_leaves c h.1, noMinInter_of_leaves d h.2⟩
  | .inter _ _, h => h
  | .allExcept _, _ => trivial
  | .except c _, h => noMinInter_of_leaves c h.1
  | .root _, _ => trivial
  | .root2 _ _, _ => trivial
  | .leaf _, _ => trivial

theorem rcon_notNeg_u32 (c : Con RLeaf) (r : Rng) (hm : c.Leaves RLeaf.NotMin)
    (hr : c.range (fun l => some (l.rng nextU32 prevU32)) = some r) : ¬ r.IsNeg :=
  range_notNeg (fun l r => rleaf_notNeg _ _ l r) c r hm hr

theorem sizeRange_contains {V : Type} (len : V → Nat) (cons : List (Con (SizeLeaf V))) (r : Rng) (v : V)
    (hu : ∀ c ∈ cons, c.Leaves SizeLeaf.U32) (hm : SerialNoMin SizeLeaf.NoMinInter SizeLeaf.NotMin cons)
    (hr : sizeRange len cons = some r) (hs : SizeSat len cons v) : r.contains (len v : Int) := by
  have hin : ∀ (l : SizeLeaf V) (r : Rng) (v : V), l.U32 → l.NoMinInter → l.rng len = some r → l.Sat len v →
      r.contains (len v : Int) := by
    intro l r v hu hm hr hs
    cases l with
    | single w =>
      injection hr with hr; subst hr
      cases hs
      exact ⟨Int.le_refl _, Int.le_refl _⟩
    | size c => exact rcon_contains_u32 c r (len v) hu hm hr hs
    | component p => injection hr with hr; subst hr; trivial
  refine serial_contains (U := SizeLeaf.U32) (proj := fun v : V => (len v : Int)) ?_ ?_ hin cons r v hu hm hr hs
  · intro l r hm hr
    cases l with
    | single w => injection hr with hr; subst hr; exact fun h => h
    | size c => exact rcon_notNeg_u32 c r hm hr
    | component p => injection hr with hr; subst hr; exact fun h => h
  · intro l r v hu hm hr hs
    refine hin l r v hu ?_ hr hs
    cases l with
    | single w => trivial
    | size c => exact noMinInter_of_leaves c hm
    | component p => trivial

theorem strSizeRange_contains (cons : List (Con StrLeaf)) (r : Rng) (s : List Nat)
    (hu : ∀ c ∈ cons, c.Leaves StrLeaf.U32) (hm : SerialNoMin StrLeaf.NoMinInter StrLeaf.NotMin cons)
    (hr : strSizeRange cons = some r) (hs : StrSat cons s) : r.contains (s.length : Int) := by
  have hin : ∀ (l : StrLeaf) (r : Rng) (v : List Nat), l.U32 → l.NoMinInter → l.rng = some r → l.Sat v →
      r.contains (v.length : Int) := by
    intro l r v hu hm hr hs
    cases l with
    | single w =>
      injection hr with hr; subst hr
      cases hs
      exact ⟨Int.le_refl _, Int.le_refl _⟩
    | size c => exact rcon_contains_u32 c r v.length hu hm hr hs
    | alphabet p => injection hr with hr; subst hr; trivial
  refine serial_contains (U := StrLeaf.U32) (proj := fun v : List Nat => (v.length : Int)) ?_ ?_ hin cons r s hu hm hr
    hs
  · intro l r hm hr
    cases l with
    | single w => injection hr with hr; subst hr; exact fun h => h
    | size c => exact rcon_notNeg_u32 c r hm hr
    | alphabet p => injection hr with hr; subst hr; exact fun h => h
  · intro l r v hu hm hr hs
    refine hin l r v hu ?_ hr hs
    cases l with
    | single w => trivial
    | size c => exact noMinInter_of_leaves c hm
    | alphabet p => trivial

/-! ### Alphabets -/

theorem mem_distinct (x : Nat) : ∀ l : List Nat, x ∈ distinct l ↔ x ∈ l
  | [] => by simp [distinct]
  | y :: l => by
    simp only [distinct, List.mem_cons, List.mem_filter, mem_distinct x l]
    by_cases h : x = y <;> simp [h]

theorem mem_intersectArrays {s1 s2 r : List Nat} (h : intersectArrays s1 s2 = some r) (x : Nat) :
    x ∈ r ↔ x ∈ s1 ∧ x ∈ s2 := by
  simp only [intersectArrays] at h
  split at h
  · cases h
  · injection h with h; subst h; simp [List.mem_filter]

theorem intersectArrays_sublist {s1 s2 r : List Nat} (h : intersectArrays s1 s2 = some r) : r.Sublist s1 := by
  simp only [intersectArrays] at h
  split at h
  · cases h
  · injection h with h; subst h; exact List.filter_sublist

/-- In a strictly increasing list, positions are ordered like values. -/
theorem idxOf_le_idxOf {l : List Nat} (hs : l.Pairwise (· < ·)) {a b : Nat} (ha : a ∈ l) (hb : b ∈ l) :
    l.idxOf a ≤ l.idxOf b ↔ a ≤ b := by
  have hla := List.idxOf_lt_length_of_mem ha
  have hlb := List.idxOf_lt_length_of_mem hb
  have ea : l[l.idxOf a] = a := List.getElem_idxOf hla
  have eb : l[l.idxOf b] = b := List.getElem_idxOf hlb
  have key : ∀ i j (hi : i < l.length) (hj : j < l.length), i < j → l[i] < l[j] := by
    intro i j hi hj hij
    exact List.pairwise_iff_getElem.1 hs i j hi hj hij
  constructor
  · intro h
    rcases Nat.lt_or_ge (l.idxOf a) (l.idxOf b) with hlt | hge
    · have := key _ _ hla hlb hlt; omega
    · have e : l.idxOf a = l.idxOf b := by omega
      have : l[l.idxOf a] = l[l.idxOf b] := by simp only [e]
      omega
  · intro h
    rcases Nat.lt_or_ge (l.idxOf b) (l.idxOf a) with hlt | hge
    · have := key _ _ hlb hla hlt; omega
    · exact hge

theorem mem_slice {l : List Nat} {x : Nat} (hx : x ∈ l) {i : Nat} {j : Int} (h1 : i ≤ l.idxOf x)
    (h2 : (l.idxOf x : Int) ≤ j) : x ∈ sliceIncl l i j := by
  have hl := List.idxOf_lt_length_of_mem hx
  rw [sliceIncl, List.mem_iff_getElem]
  refine ⟨l.idxOf x - i, ?_, ?_⟩
  · rw [List.length_drop, List.length_take]; omega
  · rw [List.getElem_drop, List.getElem_take]
    have : i + (l.idxOf x - i) = l.idxOf x := by omega
    simp only [this]
    exact List.getElem_idxOf hl

theorem charSet_mem {dflt : List Nat} (hs : dflt.Pairwise (· < ·)) {a b : Nat} {i j : Bool} {r : List Nat}
    (h : charSetFromMinMax dflt a b i j = some r) {ch : Nat} (hd : ch ∈ dflt)
    (h1 : if i then a ≤ ch else a < ch) (h2 : if j then ch ≤ b else ch < b) : ch ∈ r := by
  unfold charSetFromMinMax at h
  split at h
  · rename_i ha
    split at h
    · rename_i hb
      injection h with h; subst h
      have p1 := idxOf_le_idxOf hs ha hd
      have p2 := idxOf_le_idxOf hs hd hb
      have q1 := idxOf_le_idxOf hs hd ha
      have q2 := idxOf_le_idxOf hs hb hd
      apply mem_slice hd
      · cases i <;> simp only [Bool.false_eq_true, if_false, if_true] at * <;> omega
      · cases j <;> simp only [Bool.false_eq_true, if_false, if_true] at * <;> omega
    · cases h
  · cases h

theorem le_getLastD : ∀ {l : List Nat}, l.Pairwise (· < ·) → ∀ {x : Nat}, x ∈ l → x ≤ l.getLastD 0
  | [], _, _, hx => by cases hx
  | [y], _, x, hx => by
    rw [List.mem_singleton] at hx
    subst hx; exact Nat.le_refl _
  | y :: z :: l, hs, x, hx => by
    rw [List.pairwise_cons] at hs
    have e : (y :: z :: l).getLastD 0 = (z :: l).getLastD 0 := by simp [List.getLastD]
    rw [e]
    rcases List.mem_cons.1 hx with rfl | hx
    · have h1 := hs.1 z List.mem_cons_self
      have h2 := le_getLastD hs.2 (x := z) List.mem_cons_self
      omega
    · exact le_getLastD hs.2 hx

theorem headD_le {l : List Nat} (hs : l.Pairwise (· < ·)) {x : Nat} (hx : x ∈ l) : l.headD 0 ≤ x := by
  cases l with
  | nil => cases hx
  | cons y l =>
    rw [List.pairwise_cons] at hs
    rcases List.mem_cons.1 hx with rfl | hx
    · exact Nat.le_refl _
    · exact Nat.le_of_lt (hs.1 x hx)

theorem alpha_mem {L V : Type} {dflt : List Nat} {leafA : L → Option (List Nat)} {leafSat : L → V → Prop}
    {chars : V → List Nat}
    (hleaf : ∀ l r v, (∀ ch ∈ chars v, ch ∈ dflt) → leafA l = some r → leafSat l v → ∀ ch ∈ chars v, ch ∈ r) :
    ∀ (c : Con L) (r : List Nat) (v : V), (∀ ch ∈ chars v, ch ∈ dflt) → c.alphabet dflt leafA = some r →
      c.Sat leafSat v → ∀ ch ∈ chars v, ch ∈ r
  | .union c d, r, v, hd, hr, hs => by
    simp only [Con.alphabet, Option.bind_eq_bind, Option.bind_eq_some_iff] at hr
    obtain ⟨r1, h1, r2, h2, hr⟩ := hr
    injection hr with hr; subst hr
    intro ch hch
    rw [mem_distinct, List.mem_append]
    rcases hs with hs | hs
    · exact .inl (alpha_mem hleaf c r1 v hd h1 hs ch hch)
    · exact .inr (alpha_mem hleaf d r2 v hd h2 hs ch hch)
  | .inter c d, r, v, hd, hr, hs => by
    simp only [Con.alphabet, Option.bind_eq_bind, Option.bind_eq_some_iff] at hr
    obtain ⟨r1, h1, r2, h2, hr⟩ := hr
    intro ch hch
    rw [mem_intersectArrays hr]
    exact ⟨alpha_mem hleaf c r1 v hd h1 hs.1 ch hch, alpha_mem hleaf d r2 v hd h2 hs.2 ch hch⟩
  | .allExcept c, r, v, hd, hr, hs => by
    simp only [Con.alphabet, Option.bind_eq_bind, Option.bind_eq_some_iff] at hr
    obtain ⟨r1, h1, hr⟩ := hr
    injection hr with hr; subst hr; exact hd
  | .except c d, r, v, hd, hr, hs => by
    simp only [Con.alphabet, Option.bind_eq_bind, Option.bind_eq_some_iff] at hr
    obtain ⟨r1, h1, r2, h2, hr⟩ := hr
    injection hr with hr; subst hr
    exact alpha_mem hleaf c r1 v hd h1 hs.1
  | .root c, r, v, hd, hr, hs => by
    simp only [Con.alphabet, Option.bind_eq_bind, Option.bind_eq_some_iff] at hr
    obtain ⟨r1, h1, hr⟩ := hr
    injection hr with hr; subst hr; exact hd
  | .root2 c d, r, v, hd, hr, hs => by
    simp only [Con.alphabet, Option.bind_eq_bind, Option.bind_eq_some_iff] at hr
    obtain ⟨r1, h1, r2, h2, hr⟩ := hr
    injection hr with hr; subst hr; exact hd
  | .leaf l, r, v, hd, hr, hs => hleaf l r v hd hr hs

theorem alphaLeaf_mem {dflt : List Nat} (hp : dflt.Pairwise (· < ·)) (l : AlphaLeaf) (r : List Nat) (ch : Nat)
    (hd : ch ∈ dflt) (hr : l.set dflt = some r) (hs : l.Sat ch) : ch ∈ r := by
  cases l with
  | chars v => injection hr with hr; subst hr; exact (mem_distinct _ _).2 hs
  | range v1 v2 i j => exact charSet_mem hp hr hd hs.1 hs.2
  | valMax v1 i => exact charSet_mem hp hr hd hs (le_getLastD hp hd)
  | minVal v2 j => exact charSet_mem hp hr hd (headD_le hp hd) hs

theorem strLeaf_mem {dflt : List Nat} (hp : dflt.Pairwise (· < ·)) (l : StrLeaf) (r : List Nat) (s : List Nat)
    (hd : ∀ ch ∈ s, ch ∈ dflt) (hr : l.set dflt = some r) (hs : l.Sat s) : ∀ ch ∈ s, ch ∈ r := by
  cases l with
  | single v => injection hr with hr; subst hr; exact hd
  | size c => injection hr with hr; subst hr; exact hd
  | alphabet c =>
    intro ch hch
    exact alpha_mem (V := Nat) (chars := fun ch => [ch]) (leafSat := AlphaLeaf.Sat) (dflt := dflt)
      (fun l r v hd hr hs ch hch => by
        rw [List.mem_singleton] at hch
        subst hch
        exact alphaLeaf_mem hp l r _ (hd _ (List.mem_singleton.2 rfl)) hr hs)
      c r ch (fun x hx => by rw [List.mem_singleton] at hx; subst hx; exact hd _ hch) hr (hs ch hch) ch
      (List.mem_singleton.2 rfl)

theorem serialAlphabet_mem {dflt : List Nat} (hp : dflt.Pairwise (· < ·)) :
    ∀ (cons : List (Con StrLeaf)) (a r s : List Nat), (∀ ch ∈ s, ch ∈ dflt) → (∀ ch ∈ s, ch ∈ a) →
      serialAlphabet dflt a cons = some r → StrSat cons s → ∀ ch ∈ s, ch ∈ r
  | [], a, r, s, _, ha, hr, _ => by injection hr with hr; subst hr; exact ha
  | c :: rest, a, r, s, hd, ha, hr, hs => by
    simp only [serialAlphabet, Option.bind_eq_bind, Option.bind_eq_some_iff] at hr
    obtain ⟨r1, h1, s', h2, hr⟩ := hr
    refine serialAlphabet_mem hp rest s' r s hd ?_ hr (fun x hx => hs x (List.mem_cons_of_mem _ hx))
    intro ch hch
    rw [mem_intersectArrays h2]
    exact ⟨ha ch hch, alpha_mem (chars := fun s : List Nat => s) (leafSat := StrLeaf.Sat)
      (fun l r v hd => strLeaf_mem hp l r v hd) c r1 s hd h1 (hs c List.mem_cons_self) ch hch⟩

theorem serialAlphabet_sublist {dflt : List Nat} :
    ∀ (cons : List (Con StrLeaf)) (a r : List Nat), serialAlphabet dflt a cons = some r → r.Sublist a
  | [], a, r, hr => by injection hr with hr; subst hr; exact List.Sublist.refl _
  | c :: rest, a, r, hr => by
    simp only [serialAlphabet, Option.bind_eq_bind, Option.bind_eq_some_iff] at hr
    obtain ⟨r1, h1, s', h2, hr⟩ := hr
    exact (serialAlphabet_sublist rest s' r hr).trans (intersectArrays_sublist h2)

/-! ### The validity test -/

theorem Vcb.or_eval (a b : Vcb) (v : Int) : (a.or b).eval v = (a.eval v || b.eval v) := by
  cases a <;> cases b <;> simp [Vcb.or, Vcb.eval]

theorem Vcb.and_eval (a b : Vcb) (v : Int) : (a.and b).eval v = (a.eval v && b.eval v) := by
  cases a <;> cases b <;> simp [Vcb.and, Vcb.eval]

theorem Vcb.not_eval (a : Vcb) (v : Int) : a.not.eval v = !a.eval v := by
  cases a <;> simp [Vcb.not, Vcb.eval]

theorem Vcb.except_eval (a b : Vcb) (v : Int) : (a.except b).eval v = (a.eval v && !b.eval v) := by
  cases a <;> cases b <;> simp [Vcb.except, Vcb.not, Vcb.eval]

theorem conValMax_eval (cls : IntClass) (hc : cls.positive = true → cls.min = 0) (v1 : Int) (incl : Bool) (v : Int)
    (hlit : cls.positive = true → v1 < 2 ^ 64) (hv : cls.min ≤ v) :
    (conValMax cls v1 incl).eval v = true ↔ (if incl then v1 ≤ v else v1 < v) := by
  unfold conValMax
  split
  · cases incl <;> simp [Vcb.eval] <;> omega
  · split
    · rename_i h1 h2
      obtain ⟨h2, rfl⟩ := h2
      simp [Vcb.eval]; omega
    · rename_i h1 h2
      have e : cLiteral cls v1 = v1 := by
        unfold cLiteral
        split
        · rename_i hp
          have := hc hp
          have := hlit hp
          omega
        · rfl
      cases incl <;> simp [Vcb.eval, e]

theorem conMinVal_eval (cls : IntClass) (hc : cls.positive = true → cls.max < 2 ^ 64) (v1 : Int) (incl : Bool)
    (v : Int) (hlit : cls.positive = true → 0 ≤ v1) (hv : v ≤ cls.max) :
    (conMinVal cls v1 incl).eval v = true ↔ (if incl then v ≤ v1 else v < v1) := by
  unfold conMinVal
  split
  · cases incl <;> simp [Vcb.eval] <;> omega
  · split
    · rename_i h1 h2
      obtain ⟨h2, rfl⟩ := h2
      simp [Vcb.eval]; omega
    · rename_i h1 h2
      have e : cLiteral cls v1 = v1 := by
        unfold cLiteral
        split
        · rename_i hp
          have := hc hp
          have := hlit hp
          omega
        · rfl
      cases incl <;> simp [Vcb.eval, e]

theorem rleaf_eval (cls : IntClass) (hc : cls.positive = true → cls.min = 0 ∧ cls.max < 2 ^ 64) (l : RLeaf) (v : Int)
    (hl : l.LitsFit cls) (h1 : cls.min ≤ v) (h2 : v ≤ cls.max) : (l.vcb cls).eval v = true ↔ l.Sat v := by
  cases l with
  | single w =>
    have e : cLiteral cls w = w := by
      unfold cLiteral
      split
      · rename_i hp
        have := hl hp
        omega
      · rfl
    simp [RLeaf.vcb, Vcb.eval, RLeaf.Sat, e]
  | range v1 v2 i j =>
    simp only [RLeaf.vcb, Vcb.and_eval, Bool.and_eq_true]
    rw [conValMax_eval cls (fun h => (hc h).1) v1 i v (fun h => (hl h).1) h1,
      conMinVal_eval cls (fun h => (hc h).2) v2 j v (fun h => (hl h).2) h2]
    rfl
  | valMax v1 i => exact conValMax_eval cls (fun h => (hc h).1) v1 i v hl h1
  | minVal v2 j => exact conMinVal_eval cls (fun h => (hc h).2) v2 j v hl h2

theorem con_eval (cls : IntClass) (hc : cls.positive = true → cls.min = 0 ∧ cls.max < 2 ^ 64) (v : Int)
    (h1 : cls.min ≤ v) (h2 : v ≤ cls.max) : ∀ (c : Con RLeaf), c.Leaves (RLeaf.LitsFit cls) →
    ((conVcb cls c).eval v = true ↔ c.Sat RLeaf.Sat v)
  | .union c d, hl => by
    simp only [conVcb, Vcb.or_eval, Bool.or_eq_true, con_eval cls hc v h1 h2 c hl.1, con_eval cls hc v h1 h2 d hl.2,
      Con.Sat]
  | .inter c d, hl => by
    simp only [conVcb, Vcb.and_eval, Bool.and_eq_true, con_eval cls hc v h1 h2 c hl.1,
      con_eval cls hc v h1 h2 d hl.2, Con.Sat]
  | .allExcept c, hl => by
    have := con_eval cls hc v h1 h2 c hl
    simp only [conVcb, Vcb.not_eval, Con.Sat, ← this, Bool.not_eq_true', Bool.not_eq_true]
  | .except c d, hl => by
    have e := con_eval cls hc v h1 h2 d hl.2
    simp only [conVcb, Vcb.except_eval, Con.Sat, ← e, ← con_eval cls hc v h1 h2 c hl.1, Bool.not_eq_true',
      Bool.not_eq_true, Bool.and_eq_true]
  | .root c, hl => by simpa only [conVcb, Con.Sat] using con_eval cls hc v h1 h2 c hl
  | .root2 c d, hl => by
    simp only [conVcb, Vcb.or_eval, Bool.or_eq_true, con_eval cls hc v h1 h2 c hl.1, con_eval cls hc v h1 h2 d hl.2,
      Con.Sat]
  | .leaf l, hl => rleaf_eval cls hc l v hl h1 h2

theorem intClassOf_bounds (slim : Bool) (r : Rng) :
    (intClassOf slim r).positive = true → (intClassOf slim r).min = 0 ∧ (intClassOf slim r).max < 2 ^ 64 := by
  cases r <;> simp only [intClassOf] <;> repeat' split
  all_goals simp [uClass, sClass]

theorem intClassOf_holds (slim : Bool) (r : Rng) (v : Int) (hv : r.contains v)
    (h64 : if 0 ≤ v ∧ r.unsigned = true then v < 2 ^ 64 else -(2 ^ 63) ≤ v ∧ v < 2 ^ 63) :
    (intClassOf slim r).min ≤ v ∧ v ≤ (intClassOf slim r).max := by
  cases r <;> simp only [intClassOf, Rng.contains, Rng.unsigned, decide_eq_true_eq] at * <;> (repeat' split) <;>
    (repeat' split at h64) <;> simp [uClass, sClass] at * <;> omega

end Asn1
