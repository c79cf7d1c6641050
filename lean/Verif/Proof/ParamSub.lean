import Verif.Model.Param
/-
Substitution of actual parameters as a relation, and what it does to the values of types.
-/
namespace Asn1

/-! ## Substitution in constraints, extensible ones included -/

mutual
def subCon (A : PNames) : PCon → Option PCon
  | .val v => (cloneVal A v).map .val
  | .range a b ia ib => (cloneVal A a).bind fun a' => (cloneVal A b).map fun b' => .range a' b' ia ib
  | .ge a i => (cloneVal A a).map (.ge · i)
  | .le b i => (cloneVal A b).map (.le · i)
  | .size c => (subCon A c).map .size
  | .alpha c => (subCon A c).map .alpha
  | .union c d => (subCon A c).bind fun c' => (subCon A d).map (.union c')
  | .inter c d => (subCon A c).bind fun c' => (subCon A d).map (.inter c')
  | .allExcept c => (subCon A c).map .allExcept
  | .except c d => (subCon A c).bind fun c' => (subCon A d).map (.except c')
  | .root c => (subCon A c).map .root
  | .root2 c d => (subCon A c).bind fun c' => (subCon A d).map (.root2 c')
  | .withComp c => (subCon A c).map .withComp
  | .withComps cs => (subComps A cs).map .withComps
def subComps (A : PNames) : List (String × PMark × Option PCon) →
    Option (List (String × PMark × Option PCon))
  | [] => some []
  | (n, m, o) :: cs => (subConOpt A o).bind fun o' => (subComps A cs).map ((n, m, o') :: ·)
def subConOpt (A : PNames) : Option PCon → Option (Option PCon)
  | none => some none
  | some c => (subCon A c).map some
end

def subCons (A : PNames) : List PCon → Option (List PCon)
  | [] => some []
  | c :: cs => (subCon A c).bind fun c' => (subCons A cs).map (c' :: ·)

mutual
theorem cloneCon_sub (A : PNames) : (c : PCon) → (c' : PCon) → cloneCon A c = some c' →
    subCon A c = some c'
  | .val v, c', h => by simpa [cloneCon, subCon] using h
  | .range a b ia ib, c', h => by simpa [cloneCon, subCon] using h
  | .ge a i, c', h => by simpa [cloneCon, subCon] using h
  | .le b i, c', h => by simpa [cloneCon, subCon] using h
  | .size c, c', h => by
    simp only [cloneCon, Option.map_eq_some_iff] at h
    obtain ⟨d, hd, rfl⟩ := h
    simp [subCon, cloneCon_sub A c d hd]
  | .alpha c, c', h => by
    simp only [cloneCon, Option.map_eq_some_iff] at h
    obtain ⟨d, hd, rfl⟩ := h
    simp [subCon, cloneCon_sub A c d hd]
  | .allExcept c, c', h => by
    simp only [cloneCon, Option.map_eq_some_iff] at h
    obtain ⟨d, hd, rfl⟩ := h
    simp [subCon, cloneCon_sub A c d hd]
  | .withComp c, c', h => by
    simp only [cloneCon, Option.map_eq_some_iff] at h
    obtain ⟨d, hd, rfl⟩ := h
    simp [subCon, cloneCon_sub A c d hd]
  | .root c, c', h => by simp [cloneCon] at h
  | .union c d, c', h => by
    simp only [cloneCon, Option.map_eq_some_iff, Option.bind_eq_some_iff] at h
    obtain ⟨x, hx, y, hy, rfl⟩ := h
    simp [subCon, cloneCon_sub A c x hx, cloneCon_sub A d y hy]
  | .inter c d, c', h => by
    simp only [cloneCon, Option.map_eq_some_iff, Option.bind_eq_some_iff] at h
    obtain ⟨x, hx, y, hy, rfl⟩ := h
    simp [subCon, cloneCon_sub A c x hx, cloneCon_sub A d y hy]
  | .except c d, c', h => by
    simp only [cloneCon, Option.map_eq_some_iff, Option.bind_eq_some_iff] at h
    obtain ⟨x, hx, y, hy, rfl⟩ := h
    simp [subCon, cloneCon_sub A c x hx, cloneCon_sub A d y hy]
  | .root2 c d, c', h => by
    simp only [cloneCon, Option.map_eq_some_iff, Option.bind_eq_some_iff] at h
    obtain ⟨x, hx, y, hy, rfl⟩ := h
    simp [subCon, cloneCon_sub A c x hx, cloneCon_sub A d y hy]
  | .withComps cs, c', h => by
    simp only [cloneCon, Option.map_eq_some_iff] at h
    obtain ⟨x, hx, rfl⟩ := h
    simp [subCon, cloneComps_sub A cs x hx]
theorem cloneComps_sub (A : PNames) : (cs : List (String × PMark × Option PCon)) →
    (cs' : List (String × PMark × Option PCon)) → cloneComps A cs = some cs' →
    subComps A cs = some cs'
  | [], cs', h => by simpa [cloneComps, subComps] using h
  | (n, m, o) :: cs, cs', h => by
    simp only [cloneComps, Option.map_eq_some_iff, Option.bind_eq_some_iff] at h
    obtain ⟨x, hx, y, hy, rfl⟩ := h
    simp [subComps, cloneConOpt_sub A o x hx, cloneComps_sub A cs y hy]
theorem cloneConOpt_sub (A : PNames) : (o : Option PCon) → (o' : Option PCon) →
    cloneConOpt A o = some o' → subConOpt A o = some o'
  | none, o', h => by simpa [cloneConOpt, subConOpt] using h
  | some c, o', h => by
    simp only [cloneConOpt, Option.map_eq_some_iff] at h
    obtain ⟨x, hx, rfl⟩ := h
    simp [subConOpt, cloneCon_sub A c x hx]
end

theorem cloneCons_sub (A : PNames) (cs : List PCon) : ∀ cs', cloneCons A cs = some cs' →
    subCons A cs = some cs' := by
  induction cs with
  | nil => intro cs' h; simpa [cloneCons, subCons] using h
  | cons c cs ih =>
    intro cs' h
    simp only [cloneCons, Option.map_eq_some_iff, Option.bind_eq_some_iff] at h
    obtain ⟨x, hx, y, hy, rfl⟩ := h
    simp [subCons, cloneCon_sub A c x hx, ih y hy]

/-! ## What is not named is not replaced -/

mutual
theorem cloneVal_id (A : PNames) (q : String → Bool)
    (hq : ∀ n, q n = true → A.lookup n = none) : (v : PVal) → v.allNames q = true →
    cloneVal A v = some v
  | .int i, _ => rfl
  | .str s, _ => rfl
  | .name md n, h => by simp only [PVal.allNames] at h; simp [cloneVal, hq n h]
  | .list vs, h => by
    simp only [PVal.allNames] at h; simp [cloneVal, cloneVals_id A q hq vs h]
  | .record fs, h => by
    simp only [PVal.allNames] at h; simp [cloneVal, cloneFields_id A q hq fs h]
  | .alt n v, h => by simp only [PVal.allNames] at h; simp [cloneVal, cloneVal_id A q hq v h]
theorem cloneVals_id (A : PNames) (q : String → Bool)
    (hq : ∀ n, q n = true → A.lookup n = none) : (vs : List PVal) →
    PVal.allNamesList q vs = true → cloneVals A vs = some vs
  | [], _ => rfl
  | v :: vs, h => by
    simp only [PVal.allNamesList, Bool.and_eq_true] at h
    simp [cloneVals, cloneVal_id A q hq v h.1, cloneVals_id A q hq vs h.2]
theorem cloneFields_id (A : PNames) (q : String → Bool)
    (hq : ∀ n, q n = true → A.lookup n = none) : (fs : List (String × PVal)) →
    PVal.allNamesFields q fs = true → cloneFields A fs = some fs
  | [], _ => rfl
  | (n, v) :: fs, h => by
    simp only [PVal.allNamesFields, Bool.and_eq_true] at h
    simp [cloneFields, cloneVal_id A q hq v h.1, cloneFields_id A q hq fs h.2]
end

mutual
theorem subCon_id (A : PNames) (q : String → Bool)
    (hq : ∀ n, q n = true → A.lookup n = none) : (c : PCon) → c.allNames q = true →
    subCon A c = some c
  | .val v, h => by simp only [PCon.allNames] at h; simp [subCon, cloneVal_id A q hq v h]
  | .range a b _ _, h => by
    simp only [PCon.allNames, Bool.and_eq_true] at h
    simp [subCon, cloneVal_id A q hq a h.1, cloneVal_id A q hq b h.2]
  | .ge a _, h => by simp only [PCon.allNames] at h; simp [subCon, cloneVal_id A q hq a h]
  | .le a _, h => by simp only [PCon.allNames] at h; simp [subCon, cloneVal_id A q hq a h]
  | .size c, h => by simp only [PCon.allNames] at h; simp [subCon, subCon_id A q hq c h]
  | .alpha c, h => by simp only [PCon.allNames] at h; simp [subCon, subCon_id A q hq c h]
  | .allExcept c, h => by simp only [PCon.allNames] at h; simp [subCon, subCon_id A q hq c h]
  | .root c, h => by simp only [PCon.allNames] at h; simp [subCon, subCon_id A q hq c h]
  | .withComp c, h => by simp only [PCon.allNames] at h; simp [subCon, subCon_id A q hq c h]
  | .union c d, h => by
    simp only [PCon.allNames, Bool.and_eq_true] at h
    simp [subCon, subCon_id A q hq c h.1, subCon_id A q hq d h.2]
  | .inter c d, h => by
    simp only [PCon.allNames, Bool.and_eq_true] at h
    simp [subCon, subCon_id A q hq c h.1, subCon_id A q hq d h.2]
  | .except c d, h => by
    simp only [PCon.allNames, Bool.and_eq_true] at h
    simp [subCon, subCon_id A q hq c h.1, subCon_id A q hq d h.2]
  | .root2 c d, h => by
    simp only [PCon.allNames, Bool.and_eq_true] at h
    simp [subCon, subCon_id A q hq c h.1, subCon_id A q hq d h.2]
  | .withComps cs, h => by
    simp only [PCon.allNames] at h; simp [subCon, subComps_id A q hq cs h]
theorem subComps_id (A : PNames) (q : String → Bool)
    (hq : ∀ n, q n = true → A.lookup n = none) : (cs : List (String × PMark × Option PCon)) →
    PCon.allNamesAll q cs = true → subComps A cs = some cs
  | [], _ => rfl
  | (n, m, o) :: cs, h => by
    simp only [PCon.allNamesAll, Bool.and_eq_true] at h
    simp [subComps, subConOpt_id A q hq o h.1, subComps_id A q hq cs h.2]
theorem subConOpt_id (A : PNames) (q : String → Bool)
    (hq : ∀ n, q n = true → A.lookup n = none) : (o : Option PCon) →
    PCon.allNamesOpt q o = true → subConOpt A o = some o
  | none, _ => rfl
  | some c, h => by
    simp only [PCon.allNamesOpt] at h; simp [subConOpt, subCon_id A q hq c h]
end

theorem subCons_id (A : PNames) (q : String → Bool)
    (hq : ∀ n, q n = true → A.lookup n = none) (cs : List PCon)
    (h : cs.all (PCon.allNames q) = true) : subCons A cs = some cs := by
  induction cs with
  | nil => rfl
  | cons c cs ih =>
    simp only [List.all_cons, Bool.and_eq_true] at h
    simp [subCons, subCon_id A q hq c h.1, ih h.2]

theorem cloneOpt_id (A : PNames) (q : String → Bool)
    (hq : ∀ n, q n = true → A.lookup n = none) (o : POpt) (h : o.allNames q = true) :
    cloneOpt A o = some o := by
  cases o with
  | default v => simp only [POpt.allNames] at h; simp [cloneOpt, cloneVal_id A q hq v h]
  | _ => rfl

/-! ## The names in the result of a substitution -/

/-- The actual parameters mention only names with `q`, and the types among them have no actual
parameters inside. -/
def PNames.Closed (q : String → Bool) (A : PNames) : Prop :=
  (∀ n v, A.lookup n = some (.val v) → v.allNames q = true) ∧
  (∀ n x, A.lookup n = some (.type x) → x.allNames q = true ∧ x.argFree = true)

mutual
theorem cloneVal_names (A : PNames) (p q : String → Bool) (hA : A.Closed q)
    (hq : ∀ n, p n = true → A.lookup n = none → q n = true) : (v v' : PVal) →
    v.allNames p = true → cloneVal A v = some v' → v'.allNames q = true
  | .int i, v', _, h => by simp only [cloneVal, Option.some.injEq] at h; subst h; rfl
  | .str i, v', _, h => by simp only [cloneVal, Option.some.injEq] at h; subst h; rfl
  | .name md n, v', hp, h => by
    simp only [PVal.allNames] at hp
    simp only [cloneVal] at h
    cases hl : A.lookup n with
    | none => simp only [hl, Option.some.injEq] at h; subst h; exact hq n hp hl
    | some s =>
      cases s with
      | val w => simp only [hl, Option.some.injEq] at h; subst h; exact hA.1 n w hl
      | type t => simp [hl] at h
  | .list vs, v', hp, h => by
    simp only [PVal.allNames] at hp
    simp only [cloneVal, Option.map_eq_some_iff] at h
    obtain ⟨x, hx, rfl⟩ := h
    exact cloneVals_names A p q hA hq vs x hp hx
  | .record vs, v', hp, h => by
    simp only [PVal.allNames] at hp
    simp only [cloneVal, Option.map_eq_some_iff] at h
    obtain ⟨x, hx, rfl⟩ := h
    exact cloneFields_names A p q hA hq vs x hp hx
  | .alt n v, v', hp, h => by
    simp only [PVal.allNames] at hp
    simp only [cloneVal, Option.map_eq_some_iff] at h
    obtain ⟨x, hx, rfl⟩ := h
    exact cloneVal_names A p q hA hq v x hp hx
theorem cloneVals_names (A : PNames) (p q : String → Bool) (hA : A.Closed q)
    (hq : ∀ n, p n = true → A.lookup n = none → q n = true) : (v v' : List PVal) →
    PVal.allNamesList p v = true → cloneVals A v = some v' → PVal.allNamesList q v' = true
  | [], v', _, h => by simp only [cloneVals, Option.some.injEq] at h; subst h; rfl
  | v :: vs, v', hp, h => by
    simp only [PVal.allNamesList, Bool.and_eq_true] at hp
    simp only [cloneVals, Option.map_eq_some_iff, Option.bind_eq_some_iff] at h
    obtain ⟨x, hx, y, hy, rfl⟩ := h
    simp only [PVal.allNamesList, Bool.and_eq_true]
    exact ⟨cloneVal_names A p q hA hq v x hp.1 hx, cloneVals_names A p q hA hq vs y hp.2 hy⟩
theorem cloneFields_names (A : PNames) (p q : String → Bool) (hA : A.Closed q)
    (hq : ∀ n, p n = true → A.lookup n = none → q n = true) : (v v' : List (String × PVal)) →
    PVal.allNamesFields p v = true → cloneFields A v = some v' → PVal.allNamesFields q v' = true
  | [], v', _, h => by simp only [cloneFields, Option.some.injEq] at h; subst h; rfl
  | (n, v) :: vs, v', hp, h => by
    simp only [PVal.allNamesFields, Bool.and_eq_true] at hp
    simp only [cloneFields, Option.map_eq_some_iff, Option.bind_eq_some_iff] at h
    obtain ⟨x, hx, y, hy, rfl⟩ := h
    simp only [PVal.allNamesFields, Bool.and_eq_true]
    exact ⟨cloneVal_names A p q hA hq v x hp.1 hx, cloneFields_names A p q hA hq vs y hp.2 hy⟩
end

mutual
theorem subCon_names (A : PNames) (p q : String → Bool) (hA : A.Closed q)
    (hq : ∀ n, p n = true → A.lookup n = none → q n = true) : (c c' : PCon) →
    c.allNames p = true → subCon A c = some c' → c'.allNames q = true
  | .val v, c', hp, h => by
    simp only [PCon.allNames] at hp
    simp only [subCon, Option.map_eq_some_iff] at h
    obtain ⟨x, hx, rfl⟩ := h
    exact cloneVal_names A p q hA hq v x hp hx
  | .ge v _, c', hp, h => by
    simp only [PCon.allNames] at hp
    simp only [subCon, Option.map_eq_some_iff] at h
    obtain ⟨x, hx, rfl⟩ := h
    exact cloneVal_names A p q hA hq v x hp hx
  | .le v _, c', hp, h => by
    simp only [PCon.allNames] at hp
    simp only [subCon, Option.map_eq_some_iff] at h
    obtain ⟨x, hx, rfl⟩ := h
    exact cloneVal_names A p q hA hq v x hp hx
  | .range a b _ _, c', hp, h => by
    simp only [PCon.allNames, Bool.and_eq_true] at hp
    simp only [subCon, Option.map_eq_some_iff, Option.bind_eq_some_iff] at h
    obtain ⟨x, hx, y, hy, rfl⟩ := h
    simp only [PCon.allNames, Bool.and_eq_true]
    exact ⟨cloneVal_names A p q hA hq a x hp.1 hx, cloneVal_names A p q hA hq b y hp.2 hy⟩
  | .size c, c', hp, h => by
    simp only [PCon.allNames] at hp
    simp only [subCon, Option.map_eq_some_iff] at h
    obtain ⟨x, hx, rfl⟩ := h
    exact subCon_names A p q hA hq c x hp hx
  | .alpha c, c', hp, h => by
    simp only [PCon.allNames] at hp
    simp only [subCon, Option.map_eq_some_iff] at h
    obtain ⟨x, hx, rfl⟩ := h
    exact subCon_names A p q hA hq c x hp hx
  | .allExcept c, c', hp, h => by
    simp only [PCon.allNames] at hp
    simp only [subCon, Option.map_eq_some_iff] at h
    obtain ⟨x, hx, rfl⟩ := h
    exact subCon_names A p q hA hq c x hp hx
  | .root c, c', hp, h => by
    simp only [PCon.allNames] at hp
    simp only [subCon, Option.map_eq_some_iff] at h
    obtain ⟨x, hx, rfl⟩ := h
    exact subCon_names A p q hA hq c x hp hx
  | .withComp c, c', hp, h => by
    simp only [PCon.allNames] at hp
    simp only [subCon, Option.map_eq_some_iff] at h
    obtain ⟨x, hx, rfl⟩ := h
    exact subCon_names A p q hA hq c x hp hx
  | .union c d, c', hp, h => by
    simp only [PCon.allNames, Bool.and_eq_true] at hp
    simp only [subCon, Option.map_eq_some_iff, Option.bind_eq_some_iff] at h
    obtain ⟨x, hx, y, hy, rfl⟩ := h
    simp only [PCon.allNames, Bool.and_eq_true]
    exact ⟨subCon_names A p q hA hq c x hp.1 hx, subCon_names A p q hA hq d y hp.2 hy⟩
  | .inter c d, c', hp, h => by
    simp only [PCon.allNames, Bool.and_eq_true] at hp
    simp only [subCon, Option.map_eq_some_iff, Option.bind_eq_some_iff] at h
    obtain ⟨x, hx, y, hy, rfl⟩ := h
    simp only [PCon.allNames, Bool.and_eq_true]
    exact ⟨subCon_names A p q hA hq c x hp.1 hx, subCon_names A p q hA hq d y hp.2 hy⟩
  | .except c d, c', hp, h => by
    simp only [PCon.allNames, Bool.and_eq_true] at hp
    simp only [subCon, Option.map_eq_some_iff, Option.bind_eq_some_iff] at h
    obtain ⟨x, hx, y, hy, rfl⟩ := h
    simp only [PCon.allNames, Bool.and_eq_true]
    exact ⟨subCon_names A p q hA hq c x hp.1 hx, subCon_names A p q hA hq d y hp.2 hy⟩
  | .root2 c d, c', hp, h => by
    simp only [PCon.allNames, Bool.and_eq_true] at hp
    simp only [subCon, Option.map_eq_some_iff, Option.bind_eq_some_iff] at h
    obtain ⟨x, hx, y, hy, rfl⟩ := h
    simp only [PCon.allNames, Bool.and_eq_true]
    exact ⟨subCon_names A p q hA hq c x hp.1 hx, subCon_names A p q hA hq d y hp.2 hy⟩
  | .withComps cs, c', hp, h => by
    simp only [PCon.allNames] at hp
    simp only [subCon, Option.map_eq_some_iff] at h
    obtain ⟨x, hx, rfl⟩ := h
    exact subComps_names A p q hA hq cs x hp hx
theorem subComps_names (A : PNames) (p q : String → Bool) (hA : A.Closed q)
    (hq : ∀ n, p n = true → A.lookup n = none → q n = true) :
    (c c' : List (String × PMark × Option PCon)) →
    PCon.allNamesAll p c = true → subComps A c = some c' → PCon.allNamesAll q c' = true
  | [], v', _, h => by simp only [subComps, Option.some.injEq] at h; subst h; rfl
  | (n, m, o) :: cs, c', hp, h => by
    simp only [PCon.allNamesAll, Bool.and_eq_true] at hp
    simp only [subComps, Option.map_eq_some_iff, Option.bind_eq_some_iff] at h
    obtain ⟨x, hx, y, hy, rfl⟩ := h
    simp only [PCon.allNamesAll, Bool.and_eq_true]
    exact ⟨subConOpt_names A p q hA hq o x hp.1 hx, subComps_names A p q hA hq cs y hp.2 hy⟩
theorem subConOpt_names (A : PNames) (p q : String → Bool) (hA : A.Closed q)
    (hq : ∀ n, p n = true → A.lookup n = none → q n = true) : (c c' : Option PCon) →
    PCon.allNamesOpt p c = true → subConOpt A c = some c' → PCon.allNamesOpt q c' = true
  | none, c', _, h => by simp only [subConOpt, Option.some.injEq] at h; subst h; rfl
  | some c, c', hp, h => by
    simp only [PCon.allNamesOpt] at hp
    simp only [subConOpt, Option.map_eq_some_iff] at h
    obtain ⟨x, hx, rfl⟩ := h
    exact subCon_names A p q hA hq c x hp hx
end

theorem subCons_names (A : PNames) (p q : String → Bool) (hA : A.Closed q)
    (hq : ∀ n, p n = true → A.lookup n = none → q n = true) (cs : List PCon) :
    ∀ cs', cs.all (PCon.allNames p) = true → subCons A cs = some cs' →
    cs'.all (PCon.allNames q) = true := by
  induction cs with
  | nil => intro cs' _ h; simp only [subCons, Option.some.injEq] at h; subst h; rfl
  | cons c cs ih =>
    intro cs' hp h
    simp only [List.all_cons, Bool.and_eq_true] at hp
    simp only [subCons, Option.map_eq_some_iff, Option.bind_eq_some_iff] at h
    obtain ⟨x, hx, y, hy, rfl⟩ := h
    simp only [List.all_cons, Bool.and_eq_true]
    exact ⟨subCon_names A p q hA hq c x hp.1 hx, ih y hp.2 hy⟩

theorem cloneOpt_names (A : PNames) (p q : String → Bool) (hA : A.Closed q)
    (hq : ∀ n, p n = true → A.lookup n = none → q n = true) (o o' : POpt)
    (hp : o.allNames p = true) (h : cloneOpt A o = some o') : o'.allNames q = true := by
  cases o with
  | default v =>
    simp only [POpt.allNames] at hp
    simp only [cloneOpt, Option.map_eq_some_iff] at h
    obtain ⟨x, hx, rfl⟩ := h
    exact cloneVal_names A p q hA hq v x hp hx
  | _ => simp only [cloneOpt, Option.some.injEq] at h; subst h; rfl

/-! ## Values and constraints keep their meaning -/

/-- What the names stand for agrees with the actual parameters. -/
def ValRel (G : String → String → Option PV) (ρ : PEnv) (A : PNames) : Prop :=
  ∀ n, match A.lookup n, ρ.lookup n with
    | none, none => True
    | some (.val v), some (.val o) => v.eval G [] = o
    | some (.type _), some (.ty _ _) => True
    | _, _ => False

mutual
theorem cloneVal_eval {G : String → String → Option PV} {ρ : PEnv} {A : PNames}
    (h : ValRel G ρ A) : (v v' : PVal) → cloneVal A v = some v' → v.eval G ρ = v'.eval G []
  | .int i, v', hv => by simp only [cloneVal, Option.some.injEq] at hv; subst hv; simp [PVal.eval]
  | .str i, v', hv => by simp only [cloneVal, Option.some.injEq] at hv; subst hv; simp [PVal.eval]
  | .name md n, v', hv => by
    have hn := h n
    simp only [cloneVal] at hv
    cases ha : A.lookup n with
    | none =>
      cases hr : ρ.lookup n with
      | none =>
        simp only [ha, Option.some.injEq] at hv; subst hv
        simp [PVal.eval, hr]
      | some c => simp [ha, hr] at hn
    | some s =>
      cases s with
      | type t => simp [ha] at hv
      | val w =>
        simp only [ha, Option.some.injEq] at hv; subst hv
        cases hr : ρ.lookup n with
        | none => simp [ha, hr] at hn
        | some c =>
          cases c with
          | ty _ _ => simp [ha, hr] at hn
          | val o => simp only [ha, hr] at hn; simp [PVal.eval, hr, hn]
  | .list vs, v', hv => by
    simp only [cloneVal, Option.map_eq_some_iff] at hv
    obtain ⟨x, hx, rfl⟩ := hv
    simp [PVal.eval, cloneVals_eval h vs x hx]
  | .record vs, v', hv => by
    simp only [cloneVal, Option.map_eq_some_iff] at hv
    obtain ⟨x, hx, rfl⟩ := hv
    simp [PVal.eval, cloneFields_eval h vs x hx]
  | .alt n v, v', hv => by
    simp only [cloneVal, Option.map_eq_some_iff] at hv
    obtain ⟨x, hx, rfl⟩ := hv
    simp [PVal.eval, cloneVal_eval h v x hx]
theorem cloneVals_eval {G : String → String → Option PV} {ρ : PEnv} {A : PNames}
    (h : ValRel G ρ A) : (v v' : List PVal) → cloneVals A v = some v' →
    PVal.evalList G ρ v = PVal.evalList G [] v'
  | [], v', hv => by
    simp only [cloneVals, Option.some.injEq] at hv; subst hv; simp [PVal.evalList]
  | v :: vs, v', hv => by
    simp only [cloneVals, Option.map_eq_some_iff, Option.bind_eq_some_iff] at hv
    obtain ⟨x, hx, y, hy, rfl⟩ := hv
    simp [PVal.evalList, cloneVal_eval h v x hx, cloneVals_eval h vs y hy]
theorem cloneFields_eval {G : String → String → Option PV} {ρ : PEnv} {A : PNames}
    (h : ValRel G ρ A) : (v v' : List (String × PVal)) → cloneFields A v = some v' →
    PVal.evalFields G ρ v = PVal.evalFields G [] v'
  | [], v', hv => by
    simp only [cloneFields, Option.some.injEq] at hv; subst hv; simp [PVal.evalFields]
  | (n, v) :: vs, v', hv => by
    simp only [cloneFields, Option.map_eq_some_iff, Option.bind_eq_some_iff] at hv
    obtain ⟨x, hx, y, hy, rfl⟩ := hv
    simp [PVal.evalFields, cloneVal_eval h v x hx, cloneFields_eval h vs y hy]
end

mutual
theorem subCon_sat {A : PNames} {ev ev' : PVal → Option PV}
    (he : ∀ v v', cloneVal A v = some v' → ev v = ev' v') : (c c' : PCon) →
    subCon A c = some c' → ∀ x, c.Sat ev x ↔ c'.Sat ev' x
  | .val v, c', h, x => by
    simp only [subCon, Option.map_eq_some_iff] at h
    obtain ⟨y, hy, rfl⟩ := h
    simp [PCon.Sat, he v y hy]
  | .ge v _, c', h, x => by
    simp only [subCon, Option.map_eq_some_iff] at h
    obtain ⟨y, hy, rfl⟩ := h
    simp [PCon.Sat, he v y hy]
  | .le v _, c', h, x => by
    simp only [subCon, Option.map_eq_some_iff] at h
    obtain ⟨y, hy, rfl⟩ := h
    simp [PCon.Sat, he v y hy]
  | .range a b _ _, c', h, x => by
    simp only [subCon, Option.map_eq_some_iff, Option.bind_eq_some_iff] at h
    obtain ⟨y, hy, z, hz, rfl⟩ := h
    simp [PCon.Sat, he a y hy, he b z hz]
  | .size c, c', h, x => by
    simp only [subCon, Option.map_eq_some_iff] at h
    obtain ⟨y, hy, rfl⟩ := h
    simp only [PCon.Sat, subCon_sat he c y hy]
  | .alpha c, c', h, x => by
    simp only [subCon, Option.map_eq_some_iff] at h
    obtain ⟨y, hy, rfl⟩ := h
    simp only [PCon.Sat, subCon_sat he c y hy]
  | .allExcept c, c', h, x => by
    simp only [subCon, Option.map_eq_some_iff] at h
    obtain ⟨y, hy, rfl⟩ := h
    simp only [PCon.Sat, subCon_sat he c y hy]
  | .root c, c', h, x => by
    simp only [subCon, Option.map_eq_some_iff] at h
    obtain ⟨y, hy, rfl⟩ := h
    simp only [PCon.Sat, subCon_sat he c y hy]
  | .withComp c, c', h, x => by
    simp only [subCon, Option.map_eq_some_iff] at h
    obtain ⟨y, hy, rfl⟩ := h
    simp only [PCon.Sat, subCon_sat he c y hy]
  | .union c d, c', h, x => by
    simp only [subCon, Option.map_eq_some_iff, Option.bind_eq_some_iff] at h
    obtain ⟨y, hy, z, hz, rfl⟩ := h
    simp only [PCon.Sat, subCon_sat he c y hy, subCon_sat he d z hz]
  | .inter c d, c', h, x => by
    simp only [subCon, Option.map_eq_some_iff, Option.bind_eq_some_iff] at h
    obtain ⟨y, hy, z, hz, rfl⟩ := h
    simp only [PCon.Sat, subCon_sat he c y hy, subCon_sat he d z hz]
  | .except c d, c', h, x => by
    simp only [subCon, Option.map_eq_some_iff, Option.bind_eq_some_iff] at h
    obtain ⟨y, hy, z, hz, rfl⟩ := h
    simp only [PCon.Sat, subCon_sat he c y hy, subCon_sat he d z hz]
  | .root2 c d, c', h, x => by
    simp only [subCon, Option.map_eq_some_iff, Option.bind_eq_some_iff] at h
    obtain ⟨y, hy, z, hz, rfl⟩ := h
    simp only [PCon.Sat, subCon_sat he c y hy, subCon_sat he d z hz]
  | .withComps cs, c', h, x => by
    simp only [subCon, Option.map_eq_some_iff] at h
    obtain ⟨y, hy, rfl⟩ := h
    simp only [PCon.Sat, subComps_sat he cs y hy]
theorem subComps_sat {A : PNames} {ev ev' : PVal → Option PV}
    (he : ∀ v v', cloneVal A v = some v' → ev v = ev' v') :
    (c c' : List (String × PMark × Option PCon)) →
    subComps A c = some c' → ∀ fs, PCon.SatAll ev c fs ↔ PCon.SatAll ev' c' fs
  | [], c', h, fs => by
    simp only [subComps, Option.some.injEq] at h; subst h; simp [PCon.SatAll]
  | (n, m, o) :: cs, c', h, fs => by
    simp only [subComps, Option.map_eq_some_iff, Option.bind_eq_some_iff] at h
    obtain ⟨y, hy, z, hz, rfl⟩ := h
    simp only [PCon.SatAll, subConOpt_sat he o y hy, subComps_sat he cs z hz]
theorem subConOpt_sat {A : PNames} {ev ev' : PVal → Option PV}
    (he : ∀ v v', cloneVal A v = some v' → ev v = ev' v') : (c c' : Option PCon) →
    subConOpt A c = some c' → ∀ x, PCon.SatOpt ev c x ↔ PCon.SatOpt ev' c' x
  | none, c', h, x => by
    simp only [subConOpt, Option.some.injEq] at h; subst h; simp [PCon.SatOpt]
  | some c, c', h, x => by
    simp only [subConOpt, Option.map_eq_some_iff] at h
    obtain ⟨y, hy, rfl⟩ := h
    simp only [PCon.SatOpt, subCon_sat he c y hy]
end

theorem subCons_sat {A : PNames} {ev ev' : PVal → Option PV}
    (he : ∀ v v', cloneVal A v = some v' → ev v = ev' v') (cs : List PCon) :
    ∀ cs', subCons A cs = some cs' → ∀ x, (∀ c ∈ cs, c.Sat ev x) ↔ (∀ c ∈ cs', c.Sat ev' x) := by
  induction cs with
  | nil =>
    intro cs' h x
    simp only [subCons, Option.some.injEq] at h; subst h; simp
  | cons c cs ih =>
    intro cs' h x
    simp only [subCons, Option.map_eq_some_iff, Option.bind_eq_some_iff] at h
    obtain ⟨y, hy, z, hz, rfl⟩ := h
    simp only [List.forall_mem_cons, subCon_sat he c y hy, ih z hz]

end Asn1
