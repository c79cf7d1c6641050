import Verif.Proof.GenStr
import Verif.Proof.GenReal
import Verif.Spec.UperSafe
/-! Generated code: whole types. -/
namespace Asn1

/-! ### valid values pass the check -/

theorem rng_holds {r : Rng} {v : Int} (h : r.contains v) : r.holds v = true := by
  cases r <;> simp_all [Rng.contains, Rng.holds]

mutual
theorem valid_isValid : ∀ (t : Ty) (v : Val), Valid t v → isValid t v = true
  | .int _ _, v, h => by
    cases v <;> simp only [Valid] at h
    simp only [isValid]; exact rng_holds h.1
  | .intExt _ _ _, v, h => by
    cases v <;> simp only [Valid] at h
    simp only [isValid]
    rcases h with h | ⟨_, ⟨f, hf, h2⟩, _⟩
    · simp [h.1]
    · simp [hf, h2]
  | .bool, v, h => by cases v <;> simp only [Valid] at h; rfl
  | .null, v, h => by cases v <;> simp only [Valid] at h; rfl
  | .enum _ _ _, v, h => by
    cases v <;> simp only [Valid] at h
    simp only [isValid]; simpa using h
  | .octets _ _, v, h => by
    cases v <;> simp only [Valid] at h
    simp only [isValid]; simpa using h
  | .bits _ _ _ _, v, h => by
    cases v <;> simp only [Valid] at h
    simp only [isValid, decide_eq_true_eq]; exact ⟨h.1, h.2.1, h.2.2.1, h.2.2.2.1⟩
  | .str _ _ _, v, h => by
    cases v <;> simp only [Valid] at h
    simp only [isValid, Bool.and_eq_true, decide_eq_true_eq, List.all_eq_true]
    exact ⟨⟨h.1, h.2.1⟩, fun c hc => by simpa using (h.2.2 c hc).1⟩
  | .oid, v, h => by
    cases v <;> simp only [Valid] at h
    obtain ⟨a, b, l, ho, ha, hb, hl⟩ := h
    simp only [Oid.holdsComps] at ho
    subst ho
    simp [isValid, ha, hb]
  | .relOid, v, h => by
    cases v <;> simp only [Valid] at h
    obtain ⟨l, ho, hl⟩ := h
    simp only [Oid.holdsComps] at ho
    subst ho
    simp only [isValid, decide_eq_true_eq]; omega
  | .real _, v, h => by
    cases v <;> simp only [Valid] at h
    simp only [isValid]; exact h.1
  | .seq fs, v, h => by
    cases v <;> simp only [Valid] at h
    simp only [isValid]; exact valid_isValidFields fs _ h
  | .seqOf _ _ t, v, h => by
    cases v <;> simp only [Valid] at h
    simp only [isValid, Bool.and_eq_true, decide_eq_true_eq, List.all_eq_true]
    exact ⟨⟨h.1, h.2.1⟩, fun x hx => valid_isValid t x (h.2.2 x hx)⟩
  | .choice alts, v, h => by
    cases v <;> simp only [Valid] at h
    simp only [isValid]; exact valid_isValidAlt alts _ _ h
  | .ref t, v, h => by
    simp only [Valid] at h
    simp only [isValid]; exact valid_isValid t v h
theorem valid_isValidFields : ∀ (fs : Fields) (vs : List (Bool × Val)), ValidFields fs vs → validFields fs vs = true
  | .nil, [], _ => rfl
  | .nil, _ :: _, h => by simp [ValidFields] at h
  | .cons _ _ _, [], h => by simp [ValidFields] at h
  | .cons o t rest, (e, v) :: vs, h => by
    cases o <;> simp only [ValidFields] at h <;> simp only [validFields, Bool.and_eq_true] <;>
      refine ⟨?_, valid_isValidFields rest vs h.2⟩
    · exact valid_isValid t v h.1.2
    · rcases h.1 with h | h
      · simp [valid_isValid t v h.2]
      · simp [h.1]
    · rcases h.1 with h | h
      · simp [valid_isValid t v h.2]
      · simp [h.1]
    · simp [h.1.1]
    · exact ⟨h.1.1, valid_isValid t v h.1.2⟩
theorem valid_isValidAlt : ∀ (alts : Alts) (i : Nat) (v : Val), ValidAlt alts i v → validAlt alts i v = true
  | .nil, _, _, h => by simp [ValidAlt] at h
  | .cons t _, 0, v, h => by simp only [ValidAlt] at h; simp only [validAlt]; exact valid_isValid t v h
  | .cons _ rest, i + 1, v, h => by simp only [ValidAlt] at h; simp only [validAlt]; exact valid_isValidAlt rest i v h
end

theorem validAlt_lt : ∀ (alts : Alts) (i : Nat) (v : Val), ValidAlt alts i v → i < alts.length
  | .nil, _, _, h => by simp [ValidAlt] at h
  | .cons _ r, 0, _, _ => by simp [Alts.length]
  | .cons _ rest, i + 1, v, h => by
    simp only [ValidAlt] at h
    have := validAlt_lt rest i v h
    simp only [Alts.length]; omega

/-! ### encoding -/

theorem encPresence_appends : ∀ (fs : Fields) (vs : List (Bool × Val)), ValidFields fs vs →
    Appends (encPresence fs vs) () (presenceCode fs vs)
  | .nil, _, _ => by simp only [encPresence, presenceCode]; exact Appends.pure ()
  | .cons _ _ _, [], h => by simp [ValidFields] at h
  | .cons o t rest, (e, v) :: vs, h => by
    have step : ∀ b, b = e → ValidFields rest vs → Appends (do appendBit b; encPresence rest vs) () (e :: presenceCode rest vs) := by
      intro b hb hr
      subst hb
      exact (appendBit_writes b).appends.bind (g := fun _ => encPresence rest vs) (encPresence_appends rest vs hr)
    cases o <;> simp only [ValidFields] at h <;> simp only [encPresence, presenceCode]
    · rw [pure_bind]
      exact encPresence_appends rest vs h.2
    · exact step _ rfl h.2
    · exact step _ rfl h.2
    · exact step _ h.1.1.symm h.2
    · exact step _ h.1.1.symm h.2

mutual
theorem encTy_appends : ∀ (t : Ty) (v : Val), Ok t → Valid t v → Appends (encTy t v) true (code false t v)
  | .int _ _, v, hok, h => by
    cases v <;> simp only [Valid] at h
    simp only [Ok] at hok
    simp only [encTy, code]
    exact (encInt_appends hok h.1 h.2).thenTrue
  | .intExt _ _ _, v, hok, h => by
    cases v <;> try (simp only [Valid] at h; done)
    simp only [encTy, code]
    exact (encIntExt_appends hok h).thenTrue
  | .bool, v, _, h => by
    cases v <;> simp only [Valid] at h
    simp only [encTy, code]
    exact (appendBit_writes _).appends.thenTrue
  | .null, v, _, h => by
    cases v <;> simp only [Valid] at h
    simp only [encTy, code]
    exact Appends.pure _
  | .enum _ _ _, v, hok, h => by
    cases v <;> simp only [Valid] at h
    simp only [encTy, code]
    exact encEnum_appends hok h
  | .octets _ _, v, _, h => by
    cases v <;> simp only [Valid] at h
    simp only [encTy, code]
    exact encOctets_appends h.1 h.2
  | .bits _ _ _ _, v, _, h => by
    cases v <;> simp only [Valid] at h
    obtain ⟨h1, h2, _, _, w, hw, hp⟩ := h
    simp only [encTy, code]
    subst hw
    rw [packed_take hp]
    exact encBits_appends hp h1 h2
  | .str _ _ _, v, hok, h => by
    cases v <;> simp only [Valid] at h
    simp only [Ok] at hok
    simp only [encTy, code]
    exact encStr_appends hok.2.1 hok.2.2.2 h.1 h.2.1 (fun c hc => (h.2.2 c hc).1)
  | .oid, v, _, h => by
    cases v <;> simp only [Valid] at h
    obtain ⟨a, b, l, ho, ha, hb, hl⟩ := h
    simp only [Oid.holdsComps] at ho
    subst ho
    simp only [encTy, code]
    exact (oidEncode_appends (by simp; omega) (by simp) (by simp; omega) (by simpa using ha) (by simpa using hb)).thenTrue
  | .relOid, v, _, h => by
    cases v <;> simp only [Valid] at h
    obtain ⟨l, ho, h1, h2⟩ := h
    simp only [Oid.holdsComps] at ho
    subst ho
    simp only [encTy, code]
    exact (relOidEncode_appends (by simp; omega) (by simp; omega)).thenTrue
  | .real _, v, _, h => by
    cases v <;> simp only [Valid] at h
    simp only [encTy, code]
    exact (encodeReal_held h.2).thenTrue
  | .seq fs, v, hok, h => by
    cases v <;> simp only [Valid] at h
    simp only [Ok] at hok
    simp only [encTy, code]
    exact (encPresence_appends fs _ h).bind (g := fun _ => encFields fs _) (encFields_appends fs _ hok h)
  | .seqOf _ _ t, v, hok, h => by
    cases v <;> simp only [Valid] at h
    simp only [Ok] at hok
    simp only [encTy, code]
    unfold encSeqOf
    refine sizedEnc_appends (c := code false t) (it := fun _ (i : Nat) => do
      let v ← tblGet _ i
      encTy t v) (fun i x hx => ?_) h.1 h.2.1
    rw [tblGet_ok hx, pure_bind]
    exact encTy_appends t x hok.2 (h.2.2 x (List.mem_of_getElem? hx))
  | .choice alts, v, hok, h => by
    cases v <;> simp only [Valid] at h
    simp only [Ok] at hok
    simp only [encTy, code]
    have := validAlt_lt alts _ _ h
    rw [if_pos this]
    exact (encodeConstraintWholeNumber_appends (by omega) (by omega) (by omega)).bind (encAlt_appends alts _ _ hok.2.2 h)
  | .ref t, v, hok, h => by
    simp only [Valid] at h
    simp only [Ok] at hok
    simp only [encTy, code]
    exact encTy_appends t v hok h
theorem encFields_appends : ∀ (fs : Fields) (vs : List (Bool × Val)), OkFields fs → ValidFields fs vs →
    Appends (encFields fs vs) true (fieldsCode false fs vs)
  | .nil, _, _, _ => by simp only [encFields, fieldsCode]; exact Appends.pure _
  | .cons _ _ _, [], _, h => by simp [ValidFields] at h
  | .cons o t rest, (e, v) :: vs, hok, h => by
    simp only [OkFields] at hok
    have hrest := fun h => encFields_appends rest vs hok.2 h
    have here := fun h => encTy_appends t v hok.1 h
    cases o <;> simp only [ValidFields] at h <;> simp only [encFields, fieldsCode]
    · rw [if_pos h.1.1]
      refine (here h.1.2).bind ?_
      rw [if_pos rfl]; exact hrest h.2
    · rcases h.1 with h1 | h1
      · rw [if_pos h1.1, if_pos h1.1]
        refine (here h1.2).bind ?_
        rw [if_pos rfl]; exact hrest h.2
      · rw [if_neg (by simp [h1.1]), if_neg (by simp [h1.1]), pure_bind, if_pos rfl]
        exact hrest h.2
    · rcases h.1 with h1 | h1
      · rw [if_pos h1.1, if_pos h1.1]
        refine (here h1.2).bind ?_
        rw [if_pos rfl]; exact hrest h.2
      · rw [if_neg (by simp [h1.1]), if_neg (by simp [h1.1]), pure_bind, if_pos rfl]
        exact hrest h.2
    · rw [if_neg (by simp [h.1.1]), pure_bind, if_pos rfl]
      exact hrest h.2
    · rw [if_pos h.1.1]
      refine (here h.1.2).bind ?_
      rw [if_pos rfl]; exact hrest h.2
theorem encAlt_appends : ∀ (alts : Alts) (i : Nat) (v : Val), OkAlts alts → ValidAlt alts i v →
    Appends (encAlt alts i v) true (altCode false alts i v)
  | .nil, _, _, _, h => by simp [ValidAlt] at h
  | .cons t _, 0, v, hok, h => by
    simp only [ValidAlt] at h
    simp only [OkAlts] at hok
    simp only [encAlt, altCode]; exact encTy_appends t v hok.1 h
  | .cons _ rest, i + 1, v, hok, h => by
    simp only [ValidAlt] at h
    simp only [OkAlts] at hok
    simp only [encAlt, altCode]; exact encAlt_appends rest i v hok.2 h
end

end Asn1
