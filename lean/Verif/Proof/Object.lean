import Verif.Spec.Object
import Verif.Proof.GenTy
import Verif.Proof.Constraint
import Verif.Proof.Valid
import Verif.Props.Constraint
/-!
# C94: helper lemmas
-/
namespace Asn1

theorem con_sat {L V : Type} {leaf : AC → Option L} {P : L → V → Prop} {a : AV} {v : V}
    (hl : ∀ c l, leaf c = some l → (c.Sat a ↔ P l v)) : ∀ (c : AC) (k : Con L), c.con leaf = some k → (c.Sat a ↔ k.Sat P v)
  | .union c d, k, h => by
    simp only [AC.con, Option.bind_eq_bind, Option.bind_eq_some_iff, Option.some.injEq] at h
    obtain ⟨x, hx, y, hy, rfl⟩ := h
    simp only [AC.Sat, Con.Sat, con_sat hl c x hx, con_sat hl d y hy]
  | .inter c d, k, h => by
    simp only [AC.con, Option.bind_eq_bind, Option.bind_eq_some_iff, Option.some.injEq] at h
    obtain ⟨x, hx, y, hy, rfl⟩ := h
    simp only [AC.Sat, Con.Sat, con_sat hl c x hx, con_sat hl d y hy]
  | .except c d, k, h => by
    simp only [AC.con, Option.bind_eq_bind, Option.bind_eq_some_iff, Option.some.injEq] at h
    obtain ⟨x, hx, y, hy, rfl⟩ := h
    simp only [AC.Sat, Con.Sat, con_sat hl c x hx, con_sat hl d y hy]
  | .allExcept c, k, h => by
    simp only [AC.con, Option.bind_eq_bind, Option.bind_eq_some_iff, Option.some.injEq] at h
    obtain ⟨x, hx, rfl⟩ := h
    simp only [AC.Sat, Con.Sat, con_sat hl c x hx]
  | .root _, k, h => by simp [AC.con] at h
  | .root2 _ _, k, h => by simp [AC.con] at h
  | .range _, k, h | .realRange _, k, h | .boolean _, k, h | .item _, k, h | .octetsVal _, k, h | .bitsVal _, k, h
  | .strVal _, k, h | .oidVal _, k, h | .size _, k, h | .alphabet _, k, h | .value _, k, h | .component _, k, h
  | .components _, k, h => by
    simp only [AC.con, Option.map_eq_some_iff] at h
    obtain ⟨l, h1, rfl⟩ := h
    simp only [Con.Sat]
    exact hl _ l h1

theorem cons_sat {L V : Type} {leaf : AC → Option L} {P : L → V → Prop} {a : AV} {v : V}
    (hl : ∀ c l, leaf c = some l → (c.Sat a ↔ P l v)) : ∀ (cons : List AC) (cs : List (Con L)), AC.cons leaf cons = some cs →
      ((∀ c ∈ cons, c.Sat a) ↔ ∀ k ∈ cs, k.Sat P v)
  | [], cs, h => by
    simp only [AC.cons, Option.some.injEq] at h
    subst h; simp
  | c :: rest, cs, h => by
    simp only [AC.cons, Option.bind_eq_bind, Option.bind_eq_some_iff, Option.some.injEq] at h
    obtain ⟨x, hx, xs, hxs, rfl⟩ := h
    simp only [List.forall_mem_cons, con_sat hl c x hx, cons_sat hl rest xs hxs]

theorem con_holds {L V : Type} {leaf : L → V → Bool} {P : L → V → Prop} {v : V} (hl : ∀ l, leaf l v = true ↔ P l v) :
    ∀ c : Con L, c.holds leaf v = true ↔ c.Sat P v
  | .union c d => by simp [Con.holds, Con.Sat, con_holds hl c, con_holds hl d]
  | .inter c d => by simp [Con.holds, Con.Sat, con_holds hl c, con_holds hl d]
  | .allExcept c => by
    simp only [Con.holds, Con.Sat, Bool.not_eq_true', ← con_holds hl c]; simp
  | .except c d => by
    simp only [Con.holds, Con.Sat, Bool.and_eq_true, Bool.not_eq_true', ← con_holds hl c, ← con_holds hl d]; simp
  | .root c => by simp [Con.holds, Con.Sat, con_holds hl c]
  | .root2 c d => by simp [Con.holds, Con.Sat, con_holds hl c, con_holds hl d]
  | .leaf l => by simp [Con.holds, Con.Sat, hl l]

theorem realLeaf_holds (d : Dbl) (l : RealLeaf) : l.holds d = true ↔ l.Sat d := by
  cases l <;> simp only [RealLeaf.holds, RealLeaf.Sat, Bool.and_eq_true] <;> (repeat' split) <;> simp

theorem sizeCons_sub : ∀ (cons : List AC), ∀ c ∈ sizeCons cons, c ∈ cons
  | [], c, h => by simp [sizeCons] at h
  | d :: rest, c, h => by
    have ih := sizeCons_sub rest c
    cases d <;> simp only [sizeCons, List.mem_cons] at h ⊢ <;> (try rcases h with h | h) <;>
      first | exact .inl h | exact .inr (ih h)

/-! ### The leaves -/

theorem intRange_of_sat {cons : List AC} {v : Int} {cs : List (Con RLeaf)} {r : Rng} (h1 : AC.cons intLeaf cons = some cs)
    (h2 : intRange cs = some r) (h3 : SerialNoMin (fun _ => True) RLeaf.NotMin cs) (hs : ∀ c ∈ cons, c.Sat (.int v)) :
    r.contains v := by
  refine C33_integer_partial cs r v h3 h2 ((cons_sat (P := RLeaf.Sat) ?_ cons cs h1).1 hs)
  intro c l hcl
  cases c <;> simp only [intLeaf, reduceCtorEq, Option.some.injEq] at hcl
  subst hcl
  simp [AC.Sat]

theorem octets_of_sat {cons : List AC} {v : List Byte} {cs : List (Con (SizeLeaf (List Byte)))} {lo hi : Nat}
    (h1 : AC.cons octetLeaf cons = some cs) (h2 : sizeRange List.length cs = some (.concrete lo hi))
    (hu : ∀ c ∈ cs, c.Leaves SizeLeaf.U32) (h3 : SerialNoMin SizeLeaf.NoMinInter SizeLeaf.NotMin cs)
    (hs : ∀ c ∈ cons, c.Sat (.octets v)) : lo ≤ v.length ∧ v.length ≤ hi := by
  have := C33_size_partial List.length cs _ v hu h3 h2 ((cons_sat (P := SizeLeaf.Sat List.length) ?_ cons cs h1).1 hs)
  · simp only [Rng.contains] at this; omega
  · intro c l hcl
    cases c <;> simp only [octetLeaf, reduceCtorEq, Option.some.injEq] at hcl <;> subst hcl <;>
      simp [AC.Sat, SizeLeaf.Sat, AV.size]

theorem bits_of_sat {cons : List AC} {v : List Bool} {cs : List (Con (SizeLeaf (List Bool)))} {lo hi : Nat}
    (h1 : AC.cons bitLeaf cons = some cs) (h2 : sizeRange List.length cs = some (.concrete lo hi))
    (hu : ∀ c ∈ cs, c.Leaves SizeLeaf.U32) (h3 : SerialNoMin SizeLeaf.NoMinInter SizeLeaf.NotMin cs)
    (hs : ∀ c ∈ cons, c.Sat (.bits v)) : lo ≤ v.length ∧ v.length ≤ hi := by
  have := C33_size_partial List.length cs _ v hu h3 h2 ((cons_sat (P := SizeLeaf.Sat List.length) ?_ cons cs h1).1 hs)
  · simp only [Rng.contains] at this; omega
  · intro c l hcl
    cases c <;> simp only [bitLeaf, reduceCtorEq, Option.some.injEq] at hcl <;> subst hcl <;>
      simp [AC.Sat, SizeLeaf.Sat, AV.size]

theorem elems_of_sat {cons : List AC} {v : List AV} {cs : List (Con (SizeLeaf (List AV)))} {lo hi : Nat}
    (h1 : AC.cons elemLeaf cons = some cs) (h2 : sizeRange List.length cs = some (.concrete lo hi))
    (hu : ∀ c ∈ cs, c.Leaves SizeLeaf.U32) (h3 : SerialNoMin SizeLeaf.NoMinInter SizeLeaf.NotMin cs)
    (hs : ∀ c ∈ cons, c.Sat (.seqOf v)) : lo ≤ v.length ∧ v.length ≤ hi := by
  have := C33_size_partial List.length cs _ v hu h3 h2
    ((cons_sat (P := SizeLeaf.Sat List.length) ?_ cons cs h1).1 hs)
  · simp only [Rng.contains] at this; omega
  · intro c l hcl
    cases c <;> simp only [elemLeaf, reduceCtorEq, Option.some.injEq] at hcl <;> subst hcl <;>
      simp [AC.Sat, SizeLeaf.Sat, AV.size]

theorem byte_list_inj {l m : List Byte} (h : l.map BitVec.toNat = m.map BitVec.toNat) : l = m := by
  induction l generalizing m with
  | nil => cases m with
    | nil => rfl
    | cons _ _ => simp at h
  | cons a t ih => cases m with
    | nil => simp at h
    | cons b u =>
      simp only [List.map_cons, List.cons.injEq] at h
      rw [BitVec.eq_of_toNat_eq h.1, ih h.2]

theorem str_of_sat {cons : List AC} {v : List Byte} {cs : List (Con StrLeaf)} {lo hi : Nat} {al : List Nat}
    (h1 : AC.cons strLeaf cons = some cs) (h2 : strSizeRange cs = some (.concrete lo hi))
    (hu : ∀ c ∈ cs, c.Leaves StrLeaf.U32) (h3 : SerialNoMin StrLeaf.NoMinInter StrLeaf.NotMin cs)
    (h4 : strAlphabet ia5Chars cs = some al) (hv : ∀ c ∈ v, c.toNat < 128)
    (hs : ∀ c ∈ cons, c.Sat (.str v)) : (lo ≤ v.length ∧ v.length ≤ hi) ∧ ∀ c ∈ v, c ∈ al.map (BitVec.ofNat 8) := by
  have hS : StrSat cs (v.map BitVec.toNat) := (cons_sat (P := StrLeaf.Sat) (by
    intro c l hcl
    cases c <;> simp only [strLeaf, reduceCtorEq, Option.some.injEq] at hcl <;> subst hcl <;>
      simp only [AC.Sat, StrLeaf.Sat, AV.size, AV.str.injEq]
    · exact ⟨fun h => by rw [h], byte_list_inj⟩
    · simp
    · simp) cons cs h1).1 hs
  constructor
  · have := C33_string_size_partial cs _ _ hu h3 h2 hS
    simp only [Rng.contains, List.length_map] at this; omega
  · intro c hc
    have := C50_alphabet ia5Chars ia5Chars_increasing cs al _ h4
      (by intro ch hch
          simp only [List.mem_map] at hch
          obtain ⟨c, hc, rfl⟩ := hch
          simp only [ia5Chars, List.mem_range]; exact hv c hc) hS c.toNat (List.mem_map_of_mem hc)
    exact List.mem_map.2 ⟨c.toNat, this, by simp⟩

theorem items_of_sat {items : List Int} {cons : List AC} {v : Int} (hc : ∃ cs, AC.cons itemLeaf cons = some cs) (hv : v ∈ items)
    (hs : ∀ c ∈ cons, c.Sat (.enum v)) : v ∈ validItems items cons := by
  obtain ⟨cs, h1⟩ := hc
  unfold validItems
  rw [h1]
  simp only [List.mem_filter, List.all_eq_true]
  refine ⟨hv, fun c hc => (con_holds (P := fun w v => v = w) (by simp) c).2 ?_⟩
  refine (cons_sat (P := fun w v => v = w) ?_ cons cs h1).1 hs c hc
  intro c l hcl
  cases c <;> simp only [itemLeaf, reduceCtorEq, Option.some.injEq] at hcl
  subst hcl
  simp [AC.Sat]

theorem real_of_sat {cons : List AC} {d : Dbl} (hc : ∃ cs, AC.cons realLeaf cons = some cs)
    (hs : ∀ c ∈ cons, c.Sat (.real d)) : realHolds cons d = true := by
  obtain ⟨cs, h1⟩ := hc
  unfold realHolds
  rw [h1]
  simp only [List.all_eq_true]
  refine fun c hc => (con_holds (realLeaf_holds d) c).2 ?_
  refine (cons_sat (P := RealLeaf.Sat) ?_ cons cs h1).1 hs c hc
  intro c l hcl
  cases c <;> simp only [realLeaf, reduceCtorEq, Option.some.injEq] at hcl
  subst hcl
  simp [AC.Sat]

/-! ### Memory -/

theorem counted_some {α : Type} {n : Int} {max : Nat} {l m : List α} (h : counted n max l = some m) :
    0 ≤ n ∧ n ≤ max ∧ m = l.take n.toNat := by
  unfold counted at h
  split at h
  · rename_i hn
    exact ⟨hn.1, hn.2, by simpa using h.symm⟩
  · simp at h

theorem cString_some {arr l : List Byte} (h : cString arr = some l) :
    l = arr.takeWhile (· ≠ 0#8) ∧ (∀ c ∈ l, c.toNat < 128) ∧ ∀ c ∈ l, c ≠ 0#8 := by
  unfold cString at h
  split at h
  · rename_i hn
    simp only [Option.some.injEq] at h
    subst h
    refine ⟨rfl, hn.2, fun c hc => ?_⟩
    have := List.all_takeWhile (l := arr) (p := (· ≠ 0#8))
    rw [List.all_eq_true] at this
    simpa using this c hc
  · simp at h

theorem packed_packBits : ∀ w : List Bool, Packed w (packBits w)
  | [] => by simp [packBits, Packed, bytesBits]
  | [a] => by unfold Packed; cases a <;> decide
  | [a, b] => by unfold Packed; cases a <;> cases b <;> decide
  | [a, b, c] => by unfold Packed; cases a <;> cases b <;> cases c <;> decide
  | [a, b, c, d] => by unfold Packed; cases a <;> cases b <;> cases c <;> cases d <;> decide
  | [a, b, c, d, e] => by unfold Packed; cases a <;> cases b <;> cases c <;> cases d <;> cases e <;> decide
  | [a, b, c, d, e, f] => by unfold Packed; cases a <;> cases b <;> cases c <;> cases d <;> cases e <;> cases f <;> decide
  | [a, b, c, d, e, f, g] => by
    unfold Packed
    cases a <;> cases b <;> cases c <;> cases d <;> cases e <;> cases f <;> cases g <;> decide
  | a :: b :: c :: d :: e :: f :: g :: h :: rest => by
    have ih := packed_packBits rest
    have hb : byteBits (BitVec.ofNat 8 (128 * a.toNat + 64 * b.toNat + 32 * c.toNat + 16 * d.toNat + 8 * e.toNat + 4 * f.toNat
      + 2 * g.toNat + h.toNat)) = [a, b, c, d, e, f, g, h] := by
      cases a <;> cases b <;> cases c <;> cases d <;> cases e <;> cases f <;> cases g <;> cases h <;> decide
    rw [packBits]
    refine ⟨by simp only [List.length_cons, ih.1]; omega, ?_⟩
    rw [bytesBits_cons, hb, ih.2]
    simp only [List.length_cons, List.cons_append, List.nil_append]
    rw [show 8 * ((packBits rest).length + 1) - (rest.length + 1 + 1 + 1 + 1 + 1 + 1 + 1 + 1) = 8 * (packBits rest).length - rest.length
      by omega]

end Asn1
