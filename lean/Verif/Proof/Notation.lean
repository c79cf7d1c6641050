import Verif.Spec.Notation
import Verif.Proof.Object
/-!
# C95: helper lemmas
-/
namespace Asn1

/-! ## References -/

theorem VN.base_iff : ∀ (v w : VN), v.base = some w ↔ v.RefersTo w
  | .ref md nm g v, w => by
    rw [VN.base, VN.base_iff v w]
    refine ⟨.name, fun h => ?_⟩
    cases h with
    | written h => exact absurd trivial h
    | name h => exact h
  | .ident md nm, w => by
    rw [VN.base]
    refine ⟨fun h => by simp at h, fun h => ?_⟩
    cases h with
    | written h => exact absurd trivial h
  | .int x, w => VN.written_iff rfl (by simp [VN.IsName])
  | .real x, w => VN.written_iff rfl (by simp [VN.IsName])
  | .bool x, w => VN.written_iff rfl (by simp [VN.IsName])
  | .null, w => VN.written_iff rfl (by simp [VN.IsName])
  | .str x, w => VN.written_iff rfl (by simp [VN.IsName])
  | .bits x, w => VN.written_iff rfl (by simp [VN.IsName])
  | .octets x, w => VN.written_iff rfl (by simp [VN.IsName])
  | .oid x, w => VN.written_iff rfl (by simp [VN.IsName])
  | .seqOf x, w => VN.written_iff rfl (by simp [VN.IsName])
  | .seq x, w => VN.written_iff rfl (by simp [VN.IsName])
  | .choice n x, w => VN.written_iff rfl (by simp [VN.IsName])
where
  VN.written_iff {v w : VN} (h : v.base = some v) (hn : ¬ v.IsName) : v.base = some w ↔ v.RefersTo w := by
    rw [h]
    refine ⟨fun e => by cases e; exact .written hn, fun e => ?_⟩
    cases e with
    | written _ => rfl
    | name h => exact absurd trivial hn

theorem VN.baseFor_base (tn : Option (String × String)) : ∀ {v w : VN}, v.baseFor tn = some w → v.base = some w
  | .ref md nm g v, w, h => by
    rw [VN.baseFor] at h
    split at h
    · rw [VN.base]; exact VN.baseFor_base tn h
    · simp at h
  | .ident md nm, w, h => by simp [VN.baseFor] at h
  | .int x, w, h => h
  | .real x, w, h => h
  | .bool x, w, h => h
  | .null, w, h => h
  | .str x, w, h => h
  | .bits x, w, h => h
  | .octets x, w, h => h
  | .oid x, w, h => h
  | .seqOf x, w, h => h
  | .seq x, w, h => h
  | .choice n x, w, h => h

theorem VN.baseFor_builtin (tn : Option (String × String)) : ∀ {v : VN}, v.BuiltinGovernors → v.baseFor tn = v.base
  | .ref md nm g v, h => by
    rw [VN.BuiltinGovernors] at h
    rw [VN.baseFor, VN.base, h.1, if_pos (by cases tn <;> rfl)]
    exact VN.baseFor_builtin tn h.2
  | .ident md nm, h => rfl
  | .int x, h => rfl
  | .real x, h => rfl
  | .bool x, h => rfl
  | .null, h => rfl
  | .str x, h => rfl
  | .bits x, h => rfl
  | .octets x, h => rfl
  | .oid x, h => rfl
  | .seqOf x, h => rfl
  | .seq x, h => rfl
  | .choice n x, h => rfl

theorem VN.base_onceEach : ∀ {v w : VN}, v.base = some w → v.OnceEach → w.OnceEach
  | .ref md nm g v, w, h, ho => by
    rw [VN.OnceEach] at ho
    exact VN.base_onceEach (v := v) h ho
  | .ident md nm, w, h, _ => by simp [VN.base] at h
  | .int x, w, h, ho => by cases h; exact ho
  | .real x, w, h, ho => by cases h; exact ho
  | .bool x, w, h, ho => by cases h; exact ho
  | .null, w, h, ho => by cases h; exact ho
  | .str x, w, h, ho => by cases h; exact ho
  | .bits x, w, h, ho => by cases h; exact ho
  | .octets x, w, h, ho => by cases h; exact ho
  | .oid x, w, h, ho => by cases h; exact ho
  | .seqOf x, w, h, ho => by cases h; exact ho
  | .seq x, w, h, ho => by cases h; exact ho
  | .choice n x, w, h, ho => by cases h; exact ho

theorem VN.base_builtin : ∀ {v w : VN}, v.base = some w → v.BuiltinGovernors → w.BuiltinGovernors
  | .ref md nm g v, w, h, ho => by
    rw [VN.BuiltinGovernors] at ho
    exact VN.base_builtin (v := v) h ho.2
  | .ident md nm, w, h, _ => by simp [VN.base] at h
  | .int x, w, h, ho => by cases h; exact ho
  | .real x, w, h, ho => by cases h; exact ho
  | .bool x, w, h, ho => by cases h; exact ho
  | .null, w, h, ho => by cases h; exact ho
  | .str x, w, h, ho => by cases h; exact ho
  | .bits x, w, h, ho => by cases h; exact ho
  | .octets x, w, h, ho => by cases h; exact ho
  | .oid x, w, h, ho => by cases h; exact ho
  | .seqOf x, w, h, ho => by cases h; exact ho
  | .seq x, w, h, ho => by cases h; exact ho
  | .choice n x, w, h, ho => by cases h; exact ho

/-! ## Items -/

theorem itemNamed_mem {items : List (String × Int)} {nm : String} {x : Int} (h : itemNamed items nm = some x) : (nm, x) ∈ items := by
  unfold itemNamed at h
  cases hf : items.find? (fun p => p.1 == nm) with
  | none => rw [hf] at h; simp at h
  | some p =>
    rw [hf] at h
    have h1 := List.find?_some hf
    have h2 := List.mem_of_find?_eq_some hf
    simp only [Option.map_some, Option.some.injEq] at h
    obtain ⟨a, b⟩ := p
    simp only [beq_iff_eq] at h1
    simp only at h
    subst h1 h
    exact h2

theorem itemNamed_none {items : List (String × Int)} {nm : String} (h : itemNamed items nm = none) : nm ∉ items.map (·.1) := by
  unfold itemNamed at h
  simp only [Option.map_eq_none_iff, List.find?_eq_none] at h
  intro hm
  obtain ⟨p, hp, e⟩ := List.mem_map.1 hm
  exact h p hp (by simp [e])

theorem itemNamed_of_not_mem {items : List (String × Int)} {nm : String} (h : nm ∉ items.map (·.1)) : itemNamed items nm = none := by
  cases hi : itemNamed items nm with
  | none => rfl
  | some x => exact absurd (List.mem_map.2 ⟨_, itemNamed_mem hi, rfl⟩) h

theorem nodup_fst_unique {α : Type} {l : List (String × α)} (hn : (l.map (·.1)).Nodup) {nm : String} {x y : α}
    (hx : (nm, x) ∈ l) (hy : (nm, y) ∈ l) : x = y := by
  induction l with
  | nil => cases hx
  | cons p l ih =>
    rw [List.map_cons, List.nodup_cons] at hn
    rcases List.mem_cons.1 hx with e | hx'
    · rcases List.mem_cons.1 hy with e' | hy'
      · rw [← e] at e'; cases e'; rfl
      · exact absurd (List.mem_map.2 ⟨_, hy', by rw [← e]⟩) hn.1
    · rcases List.mem_cons.1 hy with e' | hy'
      · exact absurd (List.mem_map.2 ⟨_, hx', by rw [← e']⟩) hn.1
      · exact ih hn.2 hx' hy'

theorem itemNamed_of_mem {items : List (String × Int)} (hn : (items.map (·.1)).Nodup) {nm : String} {x : Int} (h : (nm, x) ∈ items) :
    itemNamed items nm = some x := by
  cases hi : itemNamed items nm with
  | none => exact absurd (List.mem_map.2 ⟨_, h, rfl⟩) (itemNamed_none hi)
  | some y => rw [nodup_fst_unique hn h (itemNamed_mem hi)]

theorem VN.item_sound (items : List (String × Int)) : ∀ {v : VN} {x : Int}, v.item items = some x → v.Item items x
  | .ref md nm g v, x, h => by
    rw [VN.item] at h
    cases hi : itemNamed items nm with
    | some y =>
      rw [hi] at h
      simp only [Option.some.injEq] at h
      subst h
      exact .item (itemNamed_mem hi)
    | none =>
      rw [hi] at h
      exact .name (itemNamed_none hi) (VN.item_sound items h)
  | .ident md nm, x, h => .ident (itemNamed_mem h)
  | .int x, _, h => by simp [VN.item] at h
  | .real x, _, h => by simp [VN.item] at h
  | .bool x, _, h => by simp [VN.item] at h
  | .null, _, h => by simp [VN.item] at h
  | .str x, _, h => by simp [VN.item] at h
  | .bits x, _, h => by simp [VN.item] at h
  | .octets x, _, h => by simp [VN.item] at h
  | .oid x, _, h => by simp [VN.item] at h
  | .seqOf x, _, h => by simp [VN.item] at h
  | .seq x, _, h => by simp [VN.item] at h
  | .choice n x, _, h => by simp [VN.item] at h

theorem VN.item_complete {items : List (String × Int)} (hn : (items.map (·.1)).Nodup) {v : VN} {x : Int} (h : v.Item items x) :
    v.item items = some x := by
  induction h with
  | ident h => exact itemNamed_of_mem hn h
  | item h => rw [VN.item, itemNamed_of_mem hn h]
  | name h _ ih => rw [VN.item, itemNamed_of_not_mem h]; exact ih

theorem VN.isItem_item (tn : Option (String × String)) (items : List (String × Int)) :
    ∀ {v : VN}, v.isItem tn items = some true → ∃ x, v.item items = some x
  | .ref md nm g v, h => by
    rw [VN.isItem] at h
    rw [VN.item]
    cases hi : itemNamed items nm with
    | some y => exact ⟨y, rfl⟩
    | none =>
      rw [hi] at h
      simp only [Option.isSome_none, Bool.false_eq_true, if_false] at h
      split at h
      · exact VN.isItem_item tn items h
      · simp at h
  | .ident md nm, h => by
    rw [VN.isItem] at h
    split at h
    · rename_i hs
      exact Option.isSome_iff_exists.1 hs
    · simp at h
  | .int x, h => by simp [VN.isItem] at h
  | .real x, h => by simp [VN.isItem] at h
  | .bool x, h => by simp [VN.isItem] at h
  | .null, h => by simp [VN.isItem] at h
  | .str x, h => by simp [VN.isItem] at h
  | .bits x, h => by simp [VN.isItem] at h
  | .octets x, h => by simp [VN.isItem] at h
  | .oid x, h => by simp [VN.isItem] at h
  | .seqOf x, h => by simp [VN.isItem] at h
  | .seq x, h => by simp [VN.isItem] at h
  | .choice n x, h => by simp [VN.isItem] at h

theorem VN.isItem_of_item (tn : Option (String × String)) {items : List (String × Int)} (hn : (items.map (·.1)).Nodup) {v : VN} {x : Int}
    (h : v.Item items x) (hb : v.BuiltinGovernors) : v.isItem tn items = some true := by
  induction h with
  | ident h => rw [VN.isItem, itemNamed_of_mem hn h]; rfl
  | item h => rw [VN.isItem, itemNamed_of_mem hn h]; rfl
  | name h _ ih =>
    rw [VN.BuiltinGovernors] at hb
    rw [VN.isItem, itemNamed_of_not_mem h, hb.1, if_neg (by simp), if_pos (by cases tn <;> rfl)]
    exact ih hb.2

/-! ## Strings of bits and octets -/

theorem nibbles_byte : ∀ b : Byte, nibbleBits (b.toNat / 16) ++ nibbleBits (b.toNat % 16) = byteBits b := by decide +kernel

theorem octetsToBits_eq (l : List Byte) : octetsToBits l = bytesBits l := by
  unfold octetsToBits bytesBits
  congr 1
  funext b
  exact nibbles_byte b

theorem packed_unique {w : List Bool} {l m : List Byte} (hl : Packed w l) (hm : Packed w m) : l = m := by
  apply bytesBits_inj
  rw [hl.2, hm.2, hl.1, hm.1]

/-! ## Lists -/

theorem andB_true {a b : Option Bool} : andB a b = some true ↔ a = some true ∧ b = some true := by
  cases a with
  | none => simp [andB]
  | some x => cases x <;> simp [andB]

theorem VNs.allB_true {f : VN → Option Bool} : ∀ {l : VNs}, l.allB f = some true ↔ ∀ w ∈ l.toList, f w = some true
  | .nil => by simp [VNs.allB, VNs.toList]
  | .cons v rest => by
    rw [VNs.allB, andB_true, VNs.allB_true (l := rest)]
    simp [VNs.toList]

theorem VNFields.allB_true {f : String → VN → Option Bool} :
    ∀ {l : VNFields}, l.allB f = some true ↔ ∀ p ∈ l.toList, f p.1 p.2 = some true
  | .nil => by simp [VNFields.allB, VNFields.toList]
  | .cons n v rest => by
    rw [VNFields.allB, andB_true, VNFields.allB_true (l := rest)]
    simp [VNFields.toList]

theorem VNFields.all_iff {f : String → VN → Bool} : ∀ {l : VNFields}, l.all f = true ↔ ∀ p ∈ l.toList, f p.1 p.2 = true
  | .nil => by simp [VNFields.all, VNFields.toList]
  | .cons n v rest => by
    rw [VNFields.all, Bool.and_eq_true, VNFields.all_iff (l := rest)]
    simp [VNFields.toList]

theorem VNs.mapM_iff {f : VN → Option AV} : ∀ {l : VNs} {xs : List AV}, l.mapM f = some xs ↔ List.Forall₂ (fun v x => f v = some x) l.toList xs
  | .nil, xs => by
    rw [VNs.mapM, VNs.toList]
    refine ⟨fun h => by cases h; exact .nil, fun h => by cases h; rfl⟩
  | .cons v rest, xs => by
    rw [VNs.mapM, VNs.toList]
    constructor
    · intro h
      cases hv : f v with
      | none => rw [hv] at h; simp at h
      | some x =>
        cases hr : rest.mapM f with
        | none => rw [hv, hr] at h; simp at h
        | some ys =>
          rw [hv, hr] at h
          cases h
          exact .cons hv (VNs.mapM_iff.1 hr)
    · intro h
      cases h with
      | cons hv hr => rw [hv, VNs.mapM_iff.2 hr]; rfl

theorem VNFields.names_eq : ∀ l : VNFields, l.names = l.toList.map (·.1)
  | .nil => rfl
  | .cons n v rest => by rw [VNFields.names, VNFields.toList, VNFields.names_eq rest]; rfl

theorem NFields.names_eq : ∀ l : NFields, l.names = l.toList.map (·.1)
  | .nil => rfl
  | .cons n o t rest => by rw [NFields.names, NFields.toList, NFields.names_eq rest]; rfl

theorem VNFields.find_mem : ∀ {l : VNFields} {nm : String} {w : VN}, l.find nm = some w → (nm, w) ∈ l.toList
  | .nil, nm, w, h => by simp [VNFields.find] at h
  | .cons n v rest, nm, w, h => by
    rw [VNFields.find] at h
    split at h
    · rename_i e
      simp only [beq_iff_eq] at e
      cases h
      subst e
      exact List.mem_cons_self
    · exact List.mem_cons_of_mem _ (VNFields.find_mem h)

theorem VNFields.find_none : ∀ {l : VNFields} {nm : String}, l.find nm = none → nm ∉ l.toList.map (·.1)
  | .nil, nm, _ => by simp [VNFields.toList]
  | .cons n v rest, nm, h => by
    rw [VNFields.find] at h
    split at h
    · simp at h
    · rename_i e
      have ih := VNFields.find_none h
      simp only [beq_iff_eq] at e
      rw [VNFields.toList, List.map_cons, List.mem_cons]
      exact fun hh => hh.elim (fun x => e x.symm) ih

theorem VNFields.find_of_not_mem {l : VNFields} {nm : String} (h : nm ∉ l.toList.map (·.1)) : l.find nm = none := by
  cases hf : l.find nm with
  | none => rfl
  | some w => exact absurd (List.mem_map.2 ⟨_, VNFields.find_mem hf, rfl⟩) h

theorem VNFields.find_of_mem {l : VNFields} (hn : (l.toList.map (·.1)).Nodup) {nm : String} {w : VN} (h : (nm, w) ∈ l.toList) :
    l.find nm = some w := by
  cases hf : l.find nm with
  | none => exact absurd (List.mem_map.2 ⟨_, h, rfl⟩) (VNFields.find_none hf)
  | some x => rw [nodup_fst_unique hn h (VNFields.find_mem hf)]

theorem VNs.onceEach_mem : ∀ {l : VNs}, l.OnceEach → ∀ w ∈ l.toList, w.OnceEach
  | .nil, _, w, h => by cases h
  | .cons v rest, ho, w, h => by
    rw [VNs.OnceEach] at ho
    rcases List.mem_cons.1 h with e | h
    · rw [e]; exact ho.1
    · exact VNs.onceEach_mem ho.2 w h

theorem VNFields.onceEach_mem : ∀ {l : VNFields}, l.OnceEach → ∀ p ∈ l.toList, p.2.OnceEach
  | .nil, _, w, h => by cases h
  | .cons n v rest, ho, w, h => by
    rw [VNFields.OnceEach] at ho
    rcases List.mem_cons.1 h with e | h
    · rw [e]; exact ho.1
    · exact VNFields.onceEach_mem ho.2 w h

theorem VNs.builtin_mem : ∀ {l : VNs}, l.BuiltinGovernors → ∀ w ∈ l.toList, w.BuiltinGovernors
  | .nil, _, w, h => by cases h
  | .cons v rest, ho, w, h => by
    rw [VNs.BuiltinGovernors] at ho
    rcases List.mem_cons.1 h with e | h
    · rw [e]; exact ho.1
    · exact VNs.builtin_mem ho.2 w h

theorem VNFields.builtin_mem : ∀ {l : VNFields}, l.BuiltinGovernors → ∀ p ∈ l.toList, p.2.BuiltinGovernors
  | .nil, _, w, h => by cases h
  | .cons n v rest, ho, w, h => by
    rw [VNFields.BuiltinGovernors] at ho
    rcases List.mem_cons.1 h with e | h
    · rw [e]; exact ho.1
    · exact VNFields.builtin_mem ho.2 w h

theorem NOpt.omissible_iff : ∀ {o : NOpt}, o.mayBeMissing = true ↔ o.Omissible
  | .mandatory => by simp [NOpt.mayBeMissing, NOpt.Omissible]
  | .optional => by simp [NOpt.mayBeMissing, NOpt.Omissible]
  | .default _ => by simp [NOpt.mayBeMissing, NOpt.Omissible]
  | .absent => by simp [NOpt.mayBeMissing, NOpt.Omissible]
  | .present => by simp [NOpt.mayBeMissing, NOpt.Omissible]

theorem forall2_exists {f : VN → Option AV} {P : VN → AV → Prop} : ∀ {l : List VN}, (∀ w ∈ l, ∃ a, f w = some a ∧ P w a) →
    ∃ xs, List.Forall₂ (fun v x => f v = some x) l xs ∧ List.Forall₂ P l xs
  | [], _ => ⟨[], .nil, .nil⟩
  | v :: l, h => by
    obtain ⟨a, h1, h2⟩ := h v List.mem_cons_self
    obtain ⟨xs, h3, h4⟩ := forall2_exists (l := l) fun w hw => h w (List.mem_cons_of_mem _ hw)
    exact ⟨a :: xs, .cons h1 h3, .cons h2 h4⟩

theorem forall2_left {α β : Type} {P : α → β → Prop} {l : List α} {xs : List β} (h : List.Forall₂ P l xs) {w : α} (hw : w ∈ l) :
    ∃ x, x ∈ xs ∧ P w x := by
  induction h with
  | nil => cases hw
  | cons h1 _ ih =>
    rcases List.mem_cons.1 hw with e | hw
    · exact ⟨_, List.mem_cons_self, e ▸ h1⟩
    · obtain ⟨x, hx, hp⟩ := ih hw
      exact ⟨x, List.mem_cons_of_mem _ hx, hp⟩

theorem forall2_right {α β : Type} {P : α → β → Prop} {l : List α} {xs : List β} (h : List.Forall₂ P l xs) {x : β} (hx : x ∈ xs) :
    ∃ w, w ∈ l ∧ P w x := by
  induction h with
  | nil => cases hx
  | cons h1 _ ih =>
    rcases List.mem_cons.1 hx with e | hx
    · exact ⟨_, List.mem_cons_self, e ▸ h1⟩
    · obtain ⟨w, hw, hp⟩ := ih hx
      exact ⟨w, List.mem_cons_of_mem _ hw, hp⟩

/-! ## Accepted values -/

mutual
theorem accepted : ∀ (t : NTy) (tn : Option (String × String)) (v : VN), typeMatch tn t v = some true → v.OnceEach →
    ∃ a, mapVal t v = some a ∧ t.Denotes v a
  | .int cons, tn, v, h, _ => by
    rw [typeMatch] at h
    obtain ⟨w, hw, e⟩ := Option.map_eq_some_iff.1 h
    have hb := VN.baseFor_base tn hw
    cases w <;> simp at e
    rw [mapVal, hb]
    exact ⟨_, rfl, _, (VN.base_iff _ _).1 hb, rfl⟩
  | .real cons, tn, v, h, _ => by
    rw [typeMatch] at h
    obtain ⟨w, hw, e⟩ := Option.map_eq_some_iff.1 h
    have hb := VN.baseFor_base tn hw
    cases w <;> simp at e
    · rw [mapVal, hb]
      exact ⟨_, rfl, .inr ⟨_, (VN.base_iff _ _).1 hb, rfl⟩⟩
    · rw [mapVal, hb]
      exact ⟨_, rfl, .inl ⟨_, (VN.base_iff _ _).1 hb, rfl⟩⟩
  | .bool cons, tn, v, h, _ => by
    rw [typeMatch] at h
    obtain ⟨w, hw, e⟩ := Option.map_eq_some_iff.1 h
    have hb := VN.baseFor_base tn hw
    cases w <;> simp at e
    rw [mapVal, hb]
    exact ⟨_, rfl, _, (VN.base_iff _ _).1 hb, rfl⟩
  | .null cons, tn, v, h, _ => by
    rw [typeMatch] at h
    obtain ⟨w, hw, e⟩ := Option.map_eq_some_iff.1 h
    have hb := VN.baseFor_base tn hw
    cases w <;> simp at e
    rw [mapVal, hb]
    exact ⟨_, rfl, (VN.base_iff _ _).1 hb, rfl⟩
  | .enum items cons, tn, v, h, _ => by
    rw [typeMatch] at h
    obtain ⟨x, hx⟩ := VN.isItem_item tn items h
    rw [mapVal, hx]
    exact ⟨_, rfl, _, VN.item_sound items hx, rfl⟩
  | .octets cons, tn, v, h, _ => by
    rw [typeMatch] at h
    obtain ⟨w, hw, e⟩ := Option.map_eq_some_iff.1 h
    have hb := VN.baseFor_base tn hw
    cases w <;> simp at e
    · rw [mapVal, hb]
      exact ⟨_, rfl, .inr ⟨_, _, (VN.base_iff _ _).1 hb, packed_packBits _, rfl⟩⟩
    · rw [mapVal, hb]
      exact ⟨_, rfl, .inl ⟨_, (VN.base_iff _ _).1 hb, rfl⟩⟩
  | .bits cons, tn, v, h, _ => by
    rw [typeMatch] at h
    obtain ⟨w, hw, e⟩ := Option.map_eq_some_iff.1 h
    have hb := VN.baseFor_base tn hw
    cases w <;> simp at e
    · rw [mapVal, hb]
      exact ⟨_, rfl, .inl ⟨_, (VN.base_iff _ _).1 hb, rfl⟩⟩
    · rw [mapVal, hb]
      exact ⟨_, rfl, .inr ⟨_, (VN.base_iff _ _).1 hb, by rw [octetsToBits_eq]⟩⟩
  | .str cons, tn, v, h, _ => by
    rw [typeMatch] at h
    obtain ⟨w, hw, e⟩ := Option.map_eq_some_iff.1 h
    have hb := VN.baseFor_base tn hw
    cases w <;> simp at e
    rw [mapVal, hb]
    exact ⟨_, rfl, _, (VN.base_iff _ _).1 hb, rfl⟩
  | .oid cons, tn, v, h, _ => by
    rw [typeMatch] at h
    obtain ⟨w, hw, e⟩ := Option.map_eq_some_iff.1 h
    have hb := VN.baseFor_base tn hw
    cases w <;> simp at e
    rw [mapVal, hb]
    exact ⟨_, rfl, _, (VN.base_iff _ _).1 hb, rfl⟩
  | .seqOf t cons, tn, v, h, ho => by
    rw [typeMatch] at h
    cases hw : v.baseFor tn with
    | none => rw [hw] at h; simp at h
    | some w =>
      have hb := VN.baseFor_base tn hw
      have ho' := VN.base_onceEach hb ho
      rw [hw] at h
      cases w <;> simp at h
      rename_i l
      rw [VN.OnceEach] at ho'
      have h' := VNs.allB_true.1 h
      obtain ⟨xs, h1, h2⟩ := forall2_exists (P := t.Denotes) (l := l.toList)
        fun w hw => accepted t none w (h' w hw) (VNs.onceEach_mem ho' w hw)
      rw [mapVal, hb]
      refine ⟨.seqOf xs, ?_, l, xs, (VN.base_iff _ _).1 hb, rfl, h2⟩
      simp only
      rw [VNs.mapM_iff.2 h1]
      rfl
  | .seq fs cons, tn, v, h, ho => by
    rw [typeMatch] at h
    cases hw : v.baseFor tn with
    | none => rw [hw] at h; simp at h
    | some w =>
      have hb := VN.baseFor_base tn hw
      have ho' := VN.base_onceEach hb ho
      rw [hw] at h
      cases w <;> simp only at h <;> try (simp at h)
      rename_i l
      rw [VN.OnceEach] at ho'
      obtain ⟨hf, hn⟩ := andB_true.1 h
      simp only [Option.some.injEq, List.all_eq_true] at hn
      rw [VNFields.names_eq, NFields.names_eq] at hn
      have hsub : ∀ p ∈ l.toList, p.1 ∈ fs.toList.map (·.1) := fun p hp =>
        List.contains_iff_mem.1 (hn p.1 (List.mem_map.2 ⟨p, hp, rfl⟩))
      obtain ⟨xs, h1, h2⟩ := acceptedFields fs l hf ho'.1 ho'.2
      have ha : l.all (mapField fs) = true := VNFields.all_iff.2 fun p hp =>
        acceptedField fs l hf ho'.1 ho'.2 p.1 p.2 hp (hsub p hp)
      rw [mapVal, hb]
      refine ⟨.seq xs, ?_, l, xs, (VN.base_iff _ _).1 hb, rfl, ho'.1, hsub, h2⟩
      simp only
      rw [if_pos ha, h1]
      rfl
  | .choice alts cons, tn, v, h, ho => by
    rw [typeMatch] at h
    cases hw : v.baseFor tn with
    | none => rw [hw] at h; simp at h
    | some w =>
      have hb := VN.baseFor_base tn hw
      have ho' := VN.base_onceEach hb ho
      rw [hw] at h
      cases w <;> simp only at h <;> try (simp at h)
      rename_i nm w
      rw [VN.OnceEach] at ho'
      obtain ⟨i, x, h1, h2⟩ := acceptedAlt alts nm w h ho'
      rw [mapVal, hb]
      refine ⟨.choice i x, ?_, nm, w, i, x, (VN.base_iff _ _).1 hb, rfl, h2⟩
      simp only
      rw [h1]
      rfl
  | .ref md tas t cons, tn, v, h, ho => by
    rw [typeMatch] at h
    obtain ⟨a, h1, h2⟩ := accepted t _ v h ho
    exact ⟨a, by rw [mapVal]; exact h1, h2⟩
theorem acceptedFields : ∀ (fs : NFields) (l : VNFields), matchFields fs l = some true → (l.toList.map (·.1)).Nodup → l.OnceEach →
    ∃ xs, mapFields fs l = some xs ∧ fs.Denotes l xs
  | .nil, l, _, _, _ => ⟨[], rfl, rfl⟩
  | .cons nm o t rest, l, h, hn, ho => by
    rw [matchFields] at h
    obtain ⟨h1, h2⟩ := andB_true.1 h
    obtain ⟨xs, hx1, hx2⟩ := acceptedFields rest l h2 hn ho
    rw [mapFields]
    cases hf : l.find nm with
    | none =>
      rw [hf] at h1
      simp only [Option.some.injEq] at h1
      refine ⟨none :: xs, ?_, none, xs, rfl, .inr ⟨VNFields.find_none hf, NOpt.omissible_iff.1 h1, rfl⟩, hx2⟩
      simp only [hx1]
      rfl
    | some w =>
      rw [hf] at h1
      have hm := VNFields.find_mem hf
      obtain ⟨a, ha, hd⟩ := accepted t none w h1 (VNFields.onceEach_mem ho _ hm)
      refine ⟨some a :: xs, ?_, some a, xs, rfl, .inl ⟨w, a, hm, rfl, hd⟩, hx2⟩
      simp only [ha, hx1]
      rfl
theorem acceptedField : ∀ (fs : NFields) (l : VNFields), matchFields fs l = some true → (l.toList.map (·.1)).Nodup → l.OnceEach →
    ∀ nm w, (nm, w) ∈ l.toList → nm ∈ fs.toList.map (·.1) → mapField fs nm w = true
  | .nil, l, _, _, _, nm, w, _, hm => by simp [NFields.toList] at hm
  | .cons n o t rest, l, h, hn, ho, nm, w, hl, hm => by
    rw [matchFields] at h
    obtain ⟨h1, h2⟩ := andB_true.1 h
    rw [mapField]
    by_cases e : n = nm
    · subst e
      rw [VNFields.find_of_mem hn hl] at h1
      obtain ⟨a, ha, _⟩ := accepted t none w h1 (VNFields.onceEach_mem ho _ hl)
      simp [ha]
    · rw [if_neg (by simpa using e)]
      refine acceptedField rest l h2 hn ho nm w hl ?_
      rw [NFields.toList, List.map_cons, List.mem_cons] at hm
      exact hm.resolve_left fun x => e x.symm
theorem acceptedAlt : ∀ (alts : NAlts) (nm : String) (w : VN), matchAlt alts nm w = some true → w.OnceEach →
    ∃ i x, mapAlt alts nm w = some (i, x) ∧ alts.Denotes nm w i x
  | .nil, nm, w, h, _ => by simp [matchAlt] at h
  | .cons n t rest, nm, w, h, ho => by
    rw [matchAlt] at h
    by_cases e : n = nm
    · rw [if_pos (by simpa using e)] at h
      obtain ⟨a, ha, hd⟩ := accepted t none w h ho
      refine ⟨0, a, ?_, .inl ⟨e, rfl, hd⟩⟩
      rw [mapAlt, if_pos (by simpa using e), ha]
      rfl
    · rw [if_neg (by simpa using e)] at h
      obtain ⟨i, x, h1, h2⟩ := acceptedAlt rest nm w h ho
      refine ⟨i + 1, x, ?_, .inr ⟨i, rfl, h2⟩⟩
      rw [mapAlt, if_neg (by simpa using e), h1]
      rfl
end

/-! ## Values of the type are translated, and accepted -/

theorem NAlts.denotes_mem : ∀ {alts : NAlts} {nm : String} {w : VN} {i : Nat} {x : AV}, alts.Denotes nm w i x → nm ∈ alts.toList.map (·.1)
  | .nil, _, _, _, _, h => h.elim
  | .cons n t rest, nm, w, i, x, h => by
    rw [NAlts.Denotes] at h
    rw [NAlts.toList, List.map_cons, List.mem_cons]
    rcases h with ⟨e, _⟩ | ⟨j, _, h⟩
    · exact .inl e.symm
    · exact .inr (NAlts.denotes_mem h)

mutual
theorem complete : ∀ (t : NTy) (v : VN) (a : AV), t.Denotes v a → t.Distinct → mapVal t v = some a
  | .int cons, v, a, h, _ => by
    obtain ⟨x, h, e⟩ := h
    rw [mapVal, (VN.base_iff _ _).2 h, e]
  | .real cons, v, a, h, _ => by
    rcases h with ⟨x, h, e⟩ | ⟨x, h, e⟩ <;> rw [mapVal, (VN.base_iff _ _).2 h, e]
  | .bool cons, v, a, h, _ => by
    obtain ⟨x, h, e⟩ := h
    rw [mapVal, (VN.base_iff _ _).2 h, e]
  | .null cons, v, a, h, _ => by
    obtain ⟨h, e⟩ := h
    rw [mapVal, (VN.base_iff _ _).2 h, e]
  | .enum items cons, v, a, h, hd => by
    obtain ⟨x, h, e⟩ := h
    rw [mapVal, VN.item_complete hd.1 h, e]
    rfl
  | .octets cons, v, a, h, _ => by
    rcases h with ⟨x, h, e⟩ | ⟨w, l, h, hp, e⟩
    · rw [mapVal, (VN.base_iff _ _).2 h, e]
    · rw [mapVal, (VN.base_iff _ _).2 h, e, packed_unique hp (packed_packBits w)]
  | .bits cons, v, a, h, _ => by
    rcases h with ⟨x, h, e⟩ | ⟨l, h, e⟩
    · rw [mapVal, (VN.base_iff _ _).2 h, e]
    · rw [mapVal, (VN.base_iff _ _).2 h, e, ← octetsToBits_eq]
  | .str cons, v, a, h, _ => by
    obtain ⟨x, h, e⟩ := h
    rw [mapVal, (VN.base_iff _ _).2 h, e]
  | .oid cons, v, a, h, _ => by
    obtain ⟨x, h, e⟩ := h
    rw [mapVal, (VN.base_iff _ _).2 h, e]
  | .seqOf t cons, v, a, h, hd => by
    obtain ⟨l, xs, h, e, hf⟩ := h
    rw [mapVal, (VN.base_iff _ _).2 h, e]
    simp only
    rw [VNs.mapM_iff.2 (List.Forall₂.imp (fun v a h => complete t v a h hd) hf)]
    rfl
  | .seq fs cons, v, a, h, hd => by
    obtain ⟨l, xs, h, e, hn, hs, hf⟩ := h
    rw [NTy.Distinct] at hd
    rw [mapVal, (VN.base_iff _ _).2 h, e]
    simp only
    rw [if_pos (VNFields.all_iff.2 fun p hp => completeField fs l xs hf hd.2 hn p.1 p.2 hp (hs p hp)),
      completeFields fs l xs hf hd.2 hn]
    rfl
  | .choice alts cons, v, a, h, hd => by
    obtain ⟨nm, w, i, x, h, e, hf⟩ := h
    rw [NTy.Distinct] at hd
    rw [mapVal, (VN.base_iff _ _).2 h, e]
    simp only
    rw [completeAlt alts nm w i x hf hd.2 hd.1]
    rfl
  | .ref md tas t cons, v, a, h, hd => by
    rw [mapVal]
    exact complete t v a h hd
theorem completeFields : ∀ (fs : NFields) (l : VNFields) (xs : List (Option AV)), fs.Denotes l xs → fs.Distinct →
    (l.toList.map (·.1)).Nodup → mapFields fs l = some xs
  | .nil, l, xs, h, _, _ => by rw [NFields.Denotes] at h; rw [h]; rfl
  | .cons nm o t rest, l, xs, h, hd, hn => by
    obtain ⟨x, xs', e, h1, h2⟩ := h
    rw [NFields.Distinct] at hd
    have ih := completeFields rest l xs' h2 hd.2 hn
    rw [mapFields]
    rcases h1 with ⟨w, y, hm, ex, hy⟩ | ⟨hm, _, ex⟩
    · rw [VNFields.find_of_mem hn hm]
      simp only [complete t w y hy hd.1, ih, e, ex]
      rfl
    · rw [VNFields.find_of_not_mem hm]
      simp only [ih, e, ex]
      rfl
theorem completeField : ∀ (fs : NFields) (l : VNFields) (xs : List (Option AV)), fs.Denotes l xs → fs.Distinct →
    (l.toList.map (·.1)).Nodup → ∀ nm w, (nm, w) ∈ l.toList → nm ∈ fs.toList.map (·.1) → mapField fs nm w = true
  | .nil, l, xs, h, _, _, nm, w, _, hm => by simp [NFields.toList] at hm
  | .cons n o t rest, l, xs, h, hd, hn, nm, w, hl, hm => by
    obtain ⟨x, xs', e, h1, h2⟩ := h
    rw [NFields.Distinct] at hd
    rw [mapField]
    by_cases e : n = nm
    · subst e
      rcases h1 with ⟨w', y, hm', ex, hy⟩ | ⟨hm', _, ex⟩
      · rw [nodup_fst_unique hn hl hm', complete t w' y hy hd.1]
        simp
      · exact absurd (List.mem_map.2 ⟨_, hl, rfl⟩) hm'
    · rw [if_neg (by simpa using e)]
      refine completeField rest l xs' h2 hd.2 hn nm w hl ?_
      rw [NFields.toList, List.map_cons, List.mem_cons] at hm
      exact hm.resolve_left fun x => e x.symm
theorem completeAlt : ∀ (alts : NAlts) (nm : String) (w : VN) (i : Nat) (x : AV), alts.Denotes nm w i x → alts.Distinct →
    (alts.toList.map (·.1)).Nodup → mapAlt alts nm w = some (i, x)
  | .nil, nm, w, i, x, h, _, _ => h.elim
  | .cons n t rest, nm, w, i, x, h, hd, hn => by
    rw [NAlts.Distinct] at hd
    rw [NAlts.toList, List.map_cons, List.nodup_cons] at hn
    rw [mapAlt]
    rcases h with ⟨e, ei, h⟩ | ⟨j, ei, h⟩
    · rw [if_pos (by simpa using e), complete t w x h hd.1, ei]
      rfl
    · rw [if_neg, completeAlt rest nm w j x h hd.2 hn.2, ei]
      · rfl
      · intro e
        simp only [beq_iff_eq] at e
        exact hn.1 (e ▸ NAlts.denotes_mem h)
end

mutual
theorem matched : ∀ (t : NTy) (tn : Option (String × String)) (v : VN) (a : AV), t.Denotes v a → t.Distinct → v.BuiltinGovernors →
    typeMatch tn t v = some true
  | .int cons, tn, v, a, h, _, hb => by
    obtain ⟨x, h, e⟩ := h
    rw [typeMatch, VN.baseFor_builtin tn hb, (VN.base_iff _ _).2 h]; rfl
  | .real cons, tn, v, a, h, _, hb => by
    rcases h with ⟨x, h, e⟩ | ⟨x, h, e⟩ <;> rw [typeMatch, VN.baseFor_builtin tn hb, (VN.base_iff _ _).2 h] <;> rfl
  | .bool cons, tn, v, a, h, _, hb => by
    obtain ⟨x, h, e⟩ := h
    rw [typeMatch, VN.baseFor_builtin tn hb, (VN.base_iff _ _).2 h]; rfl
  | .null cons, tn, v, a, h, _, hb => by
    obtain ⟨h, e⟩ := h
    rw [typeMatch, VN.baseFor_builtin tn hb, (VN.base_iff _ _).2 h]; rfl
  | .enum items cons, tn, v, a, h, hd, hb => by
    obtain ⟨x, h, e⟩ := h
    rw [typeMatch]
    exact VN.isItem_of_item tn hd.1 h hb
  | .octets cons, tn, v, a, h, _, hb => by
    rcases h with ⟨x, h, e⟩ | ⟨w, l, h, hp, e⟩ <;> rw [typeMatch, VN.baseFor_builtin tn hb, (VN.base_iff _ _).2 h] <;> rfl
  | .bits cons, tn, v, a, h, _, hb => by
    rcases h with ⟨x, h, e⟩ | ⟨l, h, e⟩ <;> rw [typeMatch, VN.baseFor_builtin tn hb, (VN.base_iff _ _).2 h] <;> rfl
  | .str cons, tn, v, a, h, _, hb => by
    obtain ⟨x, h, e⟩ := h
    rw [typeMatch, VN.baseFor_builtin tn hb, (VN.base_iff _ _).2 h]; rfl
  | .oid cons, tn, v, a, h, _, hb => by
    obtain ⟨x, h, e⟩ := h
    rw [typeMatch, VN.baseFor_builtin tn hb, (VN.base_iff _ _).2 h]; rfl
  | .seqOf t cons, tn, v, a, h, hd, hb => by
    obtain ⟨l, xs, h, e, hf⟩ := h
    have hbase := (VN.base_iff _ _).2 h
    have hbl := VN.base_builtin hbase hb
    rw [typeMatch, VN.baseFor_builtin tn hb, hbase]
    simp only
    rw [VNs.allB_true]
    intro w hw
    rw [VN.BuiltinGovernors] at hbl
    obtain ⟨x, _, hx⟩ := forall2_left hf hw
    exact matched t none w x hx hd (VNs.builtin_mem hbl w hw)
  | .seq fs cons, tn, v, a, h, hd, hb => by
    obtain ⟨l, xs, h, e, hn, hs, hf⟩ := h
    rw [NTy.Distinct] at hd
    have hbase := (VN.base_iff _ _).2 h
    have hbl := VN.base_builtin hbase hb
    rw [VN.BuiltinGovernors] at hbl
    rw [typeMatch, VN.baseFor_builtin tn hb, hbase]
    simp only
    rw [andB_true]
    refine ⟨matchedFields fs l xs hf hd.2 hn hbl, ?_⟩
    simp only [Option.some.injEq, List.all_eq_true]
    rw [VNFields.names_eq, NFields.names_eq]
    intro nm hnm
    obtain ⟨p, hp, e⟩ := List.mem_map.1 hnm
    exact List.contains_iff_mem.2 (e ▸ hs p hp)
  | .choice alts cons, tn, v, a, h, hd, hb => by
    obtain ⟨nm, w, i, x, h, e, hf⟩ := h
    rw [NTy.Distinct] at hd
    have hbase := (VN.base_iff _ _).2 h
    have hbl := VN.base_builtin hbase hb
    rw [VN.BuiltinGovernors] at hbl
    rw [typeMatch, VN.baseFor_builtin tn hb, hbase]
    exact matchedAlt alts nm w i x hf hd.2 hd.1 hbl
  | .ref md tas t cons, tn, v, a, h, hd, hb => by
    rw [typeMatch]
    exact matched t _ v a h hd hb
theorem matchedFields : ∀ (fs : NFields) (l : VNFields) (xs : List (Option AV)), fs.Denotes l xs → fs.Distinct →
    (l.toList.map (·.1)).Nodup → l.BuiltinGovernors → matchFields fs l = some true
  | .nil, l, xs, h, _, _, _ => rfl
  | .cons nm o t rest, l, xs, h, hd, hn, hb => by
    obtain ⟨x, xs', e, h1, h2⟩ := h
    rw [NFields.Distinct] at hd
    rw [matchFields, andB_true]
    refine ⟨?_, matchedFields rest l xs' h2 hd.2 hn hb⟩
    rcases h1 with ⟨w, y, hm, ex, hy⟩ | ⟨hm, ho, ex⟩
    · rw [VNFields.find_of_mem hn hm]
      exact matched t none w y hy hd.1 (VNFields.builtin_mem hb _ hm)
    · rw [VNFields.find_of_not_mem hm]
      simp only [Option.some.injEq]
      exact NOpt.omissible_iff.2 ho
theorem matchedAlt : ∀ (alts : NAlts) (nm : String) (w : VN) (i : Nat) (x : AV), alts.Denotes nm w i x → alts.Distinct →
    (alts.toList.map (·.1)).Nodup → w.BuiltinGovernors → matchAlt alts nm w = some true
  | .nil, nm, w, i, x, h, _, _, _ => h.elim
  | .cons n t rest, nm, w, i, x, h, hd, hn, hb => by
    rw [NAlts.Distinct] at hd
    rw [NAlts.toList, List.map_cons, List.nodup_cons] at hn
    rw [matchAlt]
    rcases h with ⟨e, ei, h⟩ | ⟨j, ei, h⟩
    · rw [if_pos (by simpa using e)]
      exact matched t none w x h hd.1 hb
    · rw [if_neg]
      · exact matchedAlt rest nm w j x h hd.2 hn.2 hb
      · intro e
        simp only [beq_iff_eq] at e
        exact hn.1 (e ▸ NAlts.denotes_mem h)
end

/-! ## Hexadecimal literals -/

theorem hex_pair : ∀ x y : Fin 16, byteBits (BitVec.ofNat 8 (16 * x.val + y.val)) = hexDigitBits x ++ hexDigitBits y := by
  decide +kernel

theorem hex_last : ∀ x : Fin 16, byteBits (BitVec.ofNat 8 (16 * x.val)) = hexDigitBits x ++ List.replicate 4 false := by
  decide +kernel

theorem hexOctets_bits : ∀ ds : List (Fin 16),
    bytesBits (hexOctets ds) = ds.flatMap hexDigitBits ++ List.replicate (4 * (ds.length % 2)) false
  | [] => rfl
  | [x] => by
    rw [hexOctets, bytesBits_cons, hex_last]
    rfl
  | x :: y :: rest => by
    rw [hexOctets, bytesBits_cons, hex_pair, hexOctets_bits rest]
    simp only [List.flatMap_cons, List.append_assoc, List.length_cons]
    rw [show (rest.length + 1 + 1) % 2 = rest.length % 2 by omega]

theorem hexOctets_length : ∀ ds : List (Fin 16), (hexOctets ds).length = (ds.length + 1) / 2
  | [] => rfl
  | [x] => by simp [hexOctets]
  | x :: y :: rest => by
    rw [hexOctets, List.length_cons, hexOctets_length rest]
    simp only [List.length_cons]
    omega

theorem hexDigits_length (ds : List (Fin 16)) : (ds.flatMap hexDigitBits).length = 4 * ds.length := by
  induction ds with
  | nil => rfl
  | cons x ds ih => rw [List.flatMap_cons, List.length_append, ih, List.length_cons]; simp [hexDigitBits]; omega

/-! ## Integers as REAL -/

theorem dblOfInt_fields {n : Int} (h0 : n ≠ 0) (h : n.natAbs < 2 ^ 53) :
    dblMant (dblOfInt n) = n.natAbs * 2 ^ (52 - Nat.log2 n.natAbs) ∧ dblPow (dblOfInt n) = (Nat.log2 n.natAbs : Int) - 52 ∧
    dblIsNan (dblOfInt n) = false ∧ dblIsInf (dblOfInt n) = false ∧ dblSign (dblOfInt n) = decide (n < 0) := by
  have hm : 0 < n.natAbs := by omega
  have hl := log2_le_52 hm h
  have e := roundMag_exact (m := n.natAbs) 0 0 (e := 0) (x := 0) hm h (by omega) (by omega)
  rw [Nat.pow_zero, Nat.mul_one] at e
  have hp : lastPlace n.natAbs 0 = (Nat.log2 n.natAbs : Int) - 52 := by unfold lastPlace; omega
  have hlt := shifted_lt (x := 0) hm h
  have hge := shifted_ge (x := 0) hm h (by rw [hp]; omega)
  have hs : (0 - lastPlace n.natAbs 0).toNat = 52 - Nat.log2 n.natAbs := by rw [hp]; omega
  rw [hs] at hlt hge
  have emag : exactMag n.natAbs 0 = (Nat.log2 n.natAbs + 1022) * 2 ^ 52 + n.natAbs * 2 ^ (52 - Nat.log2 n.natAbs) := by
    unfold exactMag
    rw [hs, show (lastPlace n.natAbs 0 + 1074).toNat = Nat.log2 n.natAbs + 1022 by rw [hp]; omega]
    omega
  have ed : dblOfInt n = dblMake (decide (n < 0)) (exactMag n.natAbs 0) := by
    unfold dblOfInt
    rw [if_neg h0, e]
  have hb : exactMag n.natAbs 0 < 2 ^ 63 := by rw [emag]; omega
  have hmag : dblMag (dblOfInt n) = (Nat.log2 n.natAbs + 1022) * 2 ^ 52 + n.natAbs * 2 ^ (52 - Nat.log2 n.natAbs) := by
    rw [ed, dblMag_make _ hb, emag]
  obtain ⟨f1, f2, f3, f4⟩ := fields_of_mag hmag hlt (Or.inr hge) (by omega)
  exact ⟨f1, by rw [f2]; omega, f3, f4, by rw [ed, dblSign_make _ hb]⟩

end Asn1
