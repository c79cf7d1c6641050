import Verif.Proof.CompileNums
import Verif.Proof.Init
import Verif.Props.Init
/-!
# Every value of a type as written has an object: proof for C100
-/
namespace Asn1

theorem serial_left {P Q : XC → Prop} {cs ex : List XC} (h : XC.SerialNoMin P Q (cs ++ ex)) : XC.SerialNoMin P Q cs := by
  rcases h with ⟨c, h, hc⟩ | h
  · cases cs with
    | nil => exact .inr (by simp)
    | cons d cs =>
      simp only [List.cons_append, List.cons.injEq, List.append_eq_nil_iff] at h
      obtain ⟨rfl, rfl, rfl⟩ := h
      exact .inl ⟨d, rfl, hc⟩
  · exact .inr (fun c hc => h c (List.mem_append_left _ hc))

theorem counted_pad {α : Type} (l : List α) (hi : Nat) (h : l.length ≤ hi) (x : α) :
    counted (l.length : Int) hi (l ++ List.replicate (hi - l.length) x) = some l := by
  unfold counted
  rw [if_pos (by omega)]
  simp

theorem cString_pad (l : List Byte) (n : Nat) (h : ∀ c ∈ l, c ≠ 0#8 ∧ c.toNat < 128) : cString (l ++ List.replicate (n + 1) 0#8) = some l := by
  have e : (l ++ List.replicate (n + 1) 0#8).takeWhile (· ≠ 0#8) = l := by
    rw [List.takeWhile_append_of_pos (by intro c hc; simpa using (h c hc).1)]
    simp [List.replicate_succ]
  unfold cString
  rw [e, if_pos ⟨by simp, fun c hc => (h c hc).2⟩]

theorem forall₂_pad {α β : Type} {R Q : α → β → Prop} : ∀ {l : List β}, (∀ y ∈ l, ∃ x, R x y ∧ Q x y) →
    ∃ m : List α, List.Forall₂ R m l ∧ List.Forall₂ Q m l
  | [], _ => ⟨[], .nil, .nil⟩
  | y :: l, h => by
    obtain ⟨x, h1, h2⟩ := h y (by simp)
    obtain ⟨m, h3, h4⟩ := forall₂_pad (R := R) (Q := Q) (fun y (hy : y ∈ l) => h y (List.mem_cons_of_mem _ hy))
    exact ⟨x :: m, .cons h1 h3, .cons h2 h4⟩

theorem forall₂_left {α β : Type} {P : α → Prop} : ∀ {m : List α} {l : List β}, List.Forall₂ (fun x _ => P x) m l → ∀ x ∈ m, P x
  | _, _, .nil, x, hx => by simp at hx
  | _, _, .cons h t, x, hx => by
    rcases List.mem_cons.1 hx with rfl | hx
    · exact h
    · exact forall₂_left t x hx

theorem childOpt_mandatory {t : NTy} {o : NOpt} {m : Option Mark} {co : COpt} (h : childOpt t o m = some co) (hc : co = .mandatory) : o = .mandatory := by
  subst hc
  unfold childOpt at h
  split at h <;> simp at h <;> try rfl
  all_goals
    cases m with
    | none => simp at h
    | some x => cases x <;> simp [Mark.toCOpt] at h

mutual
theorem compile_object (slim : Bool) : ∀ (t : NTy) (w : List XC) (ct : CTy) (a : AV) (ex : List XC), compile slim w t = some ct → t.Distinct → t.Valued →
    t.OrdinaryIn ex → t.Sat a → t.Has a → ∃ v, meaning ct v = some a ∧ HasLayout ct v
  | .int cs, w, ct, a, ex, h, hd, hv, ho, hs, hh => by
    rw [compile] at h
    simp only [Option.bind_eq_bind, Option.bind_eq_some_iff, Option.some.injEq] at h
    obtain ⟨acs, h1, r, h2, rfl⟩ := h
    rw [NTy.Valued] at hv
    rw [NTy.Sat, ← mapAll_sat hd a h1 hv] at hs
    rw [NTy.OrdinaryIn] at ho
    rw [NTy.Has] at hh
    obtain ⟨v, rfl, hr⟩ := hh
    refine ⟨.int v, ?_, by simp only [HasLayout]⟩
    have h2' := h2
    rw [intRangeOf, Option.bind_eq_some_iff] at h2'
    obtain ⟨xs, h3, h4⟩ := h2'
    have hn : SerialNoMin (fun _ => True) RLeaf.NotMin xs := by
      refine serial_cons (fun c ac l hc hq h5 h6 => ?_) (fun c ac l hc hq h5 h6 => trivial) h1 h3 (serial_left ho)
      cases ac <;> simp [intLeaf] at h6
      subst h6
      exact mapCon_range hc h5 hq
    have hcont := intRange_of_sat h3 h4 hn hs
    rw [meaning, if_pos]
    refine intClassOf_holds slim r v hcont ?_
    rcases hr with hr | ⟨hr, acs', r', h5, h6, h7⟩
    · split <;> omega
    · rw [h1] at h5
      cases h5
      rw [h2] at h6
      cases h6
      have : 0 ≤ v := by
        cases r <;> simp [Rng.unsigned, Rng.contains] at h7 hcont <;> omega
      rw [if_pos ⟨this, h7⟩]
      exact hr
  | .real cs, w, ct, a, ex, h, hd, hv, ho, hs, hh => by
    rw [compile] at h
    simp only [Option.bind_eq_bind, Option.bind_eq_some_iff, Option.some.injEq] at h
    obtain ⟨acs, h1, rfl⟩ := h
    rw [NTy.Has] at hh
    obtain ⟨d, rfl⟩ := hh
    exact ⟨.real d, by rw [meaning], by simp only [HasLayout]⟩
  | .bool cs, w, ct, a, ex, h, hd, hv, ho, hs, hh => by
    rw [compile] at h
    simp only [Option.bind_eq_bind, Option.bind_eq_some_iff, Option.some.injEq] at h
    obtain ⟨acs, h1, rfl⟩ := h
    rw [NTy.Has] at hh
    obtain ⟨d, rfl⟩ := hh
    exact ⟨.bool d, by rw [meaning], by simp only [HasLayout]⟩
  | .null cs, w, ct, a, ex, h, hd, hv, ho, hs, hh => by
    rw [compile] at h
    split at h <;> simp at h
    subst h
    rw [NTy.Has] at hh
    subst hh
    exact ⟨.null, by rw [meaning], by simp only [HasLayout]⟩
  | .enum items cs, w, ct, a, ex, h, hd, hv, ho, hs, hh => by
    rw [compile] at h
    simp only [Option.bind_eq_bind, Option.bind_eq_some_iff, Option.some.injEq] at h
    obtain ⟨acs, h1, rfl⟩ := h
    rw [NTy.Has] at hh
    obtain ⟨v, rfl, p, hp, rfl⟩ := hh
    exact ⟨.enum p.2, by rw [meaning, if_pos (List.mem_map.2 ⟨p, hp, rfl⟩)], by simp only [HasLayout]⟩
  | .octets cs, w, ct, a, ex, h, hd, hv, ho, hs, hh => by
    rw [compile] at h
    simp only [Option.bind_eq_bind, Option.bind_eq_some_iff, Option.some.injEq] at h
    obtain ⟨acs, h1, r, h2, rfl⟩ := h
    rw [NTy.Valued] at hv
    rw [NTy.Sat, ← mapAll_sat hd a h1 hv] at hs
    simp only [octetsSize, Option.bind_eq_bind, Option.bind_eq_some_iff] at h2
    obtain ⟨xs, h3, h4⟩ := h2
    rw [NTy.OrdinaryIn] at ho
    have hk := sizes_ok (fun ac l h => octet_size h) h1 h3 (serial_left ho)
    rw [NTy.Has] at hh
    obtain ⟨l, rfl⟩ := hh
    have hl := octets_of_sat h3 (sizeMinMax_some h4) hk.1 hk.2 hs
    refine ⟨.octets l.length (l ++ List.replicate (r.2 - l.length) 0#8), ?_, ?_⟩
    · rw [meaning, if_pos (by simp; omega)]
      by_cases e : r.1 = r.2
      · rw [if_pos e]
        have : r.2 - l.length = 0 := by omega
        simp [this]
      · rw [if_neg e, counted_pad l r.2 hl.2]
        rfl
    · rw [HasLayout]
      simp; omega
  | .bits cs, w, ct, a, ex, h, hd, hv, ho, hs, hh => by
    rw [compile] at h
    simp only [Option.bind_eq_bind, Option.bind_eq_some_iff, Option.some.injEq] at h
    obtain ⟨acs, h1, r, h2, rfl⟩ := h
    rw [NTy.Valued] at hv
    rw [NTy.Sat, ← mapAll_sat hd a h1 hv] at hs
    simp only [bitsSize, Option.bind_eq_bind, Option.bind_eq_some_iff] at h2
    obtain ⟨xs, h3, h4⟩ := h2
    rw [NTy.OrdinaryIn] at ho
    have hk := sizes_ok (fun ac l h => bit_size h) h1 h3 (serial_left ho)
    rw [NTy.Has] at hh
    obtain ⟨l, rfl⟩ := hh
    have hl := bits_of_sat h3 (sizeMinMax_some h4) hk.1 hk.2 hs
    have hp := packed_packBits (l ++ List.replicate (r.2 - l.length) false)
    have hlen : (l ++ List.replicate (r.2 - l.length) false).length = r.2 := by simp; omega
    have h5 : (packBits (l ++ List.replicate (r.2 - l.length) false)).length = (r.2 + 7) / 8 := by rw [packBits_length, hlen]
    refine ⟨.bits l.length (packBits (l ++ List.replicate (r.2 - l.length) false)), ?_, ?_⟩
    · rw [meaning, if_pos h5, hp.2]
      by_cases e : r.1 = r.2
      · rw [if_pos e]
        have : r.2 - l.length = 0 := by omega
        have e2 : l.length = r.2 := by omega
        simp [this, List.take_append, e2]
      · rw [if_neg e, counted, if_pos (by omega)]
        simp [List.append_assoc]
    · rw [HasLayout]
      exact h5
  | .str cs, w, ct, a, ex, h, hd, hv, ho, hs, hh => by
    rw [compile] at h
    simp only [Option.bind_eq_bind, Option.bind_eq_some_iff, Option.some.injEq] at h
    obtain ⟨acs, h1, r, h2, al, h5, rfl⟩ := h
    rw [NTy.Valued] at hv
    rw [NTy.Sat, ← mapAll_sat hd a h1 hv] at hs
    simp only [strSize, Option.bind_eq_bind, Option.bind_eq_some_iff] at h2
    obtain ⟨xs, h3, h4⟩ := h2
    simp only [strChars, Option.bind_eq_bind, Option.bind_eq_some_iff, Option.some.injEq] at h5
    obtain ⟨ys, h6, chars, h7, rfl⟩ := h5
    rw [h3] at h6
    cases h6
    rw [NTy.OrdinaryIn] at ho
    have hk := strs_ok h1 h3 (serial_left ho)
    rw [NTy.Has] at hh
    obtain ⟨l, rfl, hc⟩ := hh
    have hl := (str_of_sat h3 (sizeMinMax_some h4) hk.1 hk.2 h7 (fun c h => (hc c h).2) hs).1
    refine ⟨.str (l ++ List.replicate (r.2 - l.length + 1) 0#8), ?_, ?_⟩
    · rw [meaning, if_pos (by simp; omega), cString_pad l _ hc]
      rfl
    · rw [HasLayout]
      simp; omega
  | .oid cs, w, ct, a, ex, h, hd, hv, ho, hs, hh => by
    rw [compile] at h
    simp only [Option.bind_eq_bind, Option.bind_eq_some_iff, Option.some.injEq] at h
    obtain ⟨acs, h1, rfl⟩ := h
    rw [NTy.Has] at hh
    obtain ⟨l, rfl, hl⟩ := hh
    refine ⟨.oid ⟨l.length, l ++ List.replicate (20 - l.length) 0#64⟩, ?_, ?_⟩
    · rw [meaning, if_pos ⟨by simp; omega, by simpa using hl⟩]
      simp
    · rw [HasLayout]
      simp; omega
  | .seq fs cs, w, ct, a, ex, h, hd, hv, ho, hs, hh => by
    rw [compile] at h
    simp only [Option.bind_eq_bind, Option.bind_eq_some_iff, Option.some.injEq] at h
    obtain ⟨acs, h1, cfs, h2, rfl⟩ := h
    rw [NTy.Has] at hh
    obtain ⟨l, rfl, hl⟩ := hh
    rw [NTy.Sat] at hs
    obtain ⟨_, l', e, hs⟩ := hs
    cases e
    rw [NTy.Distinct] at hd
    rw [NTy.Valued] at hv
    rw [NTy.OrdinaryIn] at ho
    obtain ⟨vs, hm, hlay⟩ := compileFields_object slim fs _ cfs l h2 hd.2 hv.2 ho.2 hs hl
    exact ⟨.seq vs, by rw [meaning, hm]; rfl, by rw [HasLayout]; exact hlay⟩
  | .seqOf t cs, w, ct, a, ex, h, hd, hv, ho, hs, hh => by
    rw [compile] at h
    simp only [Option.bind_eq_bind, Option.bind_eq_some_iff, Option.some.injEq] at h
    obtain ⟨acs, h1, ce, h2, r, h3, rfl⟩ := h
    rw [NTy.Has] at hh
    obtain ⟨l, rfl, hh⟩ := hh
    rw [NTy.Valued] at hv
    have hd' := hd
    rw [NTy.Distinct] at hd
    rw [NTy.OrdinaryIn] at ho
    rw [NTy.Sat] at hs
    obtain ⟨hc, l', e, hs⟩ := hs
    cases e
    have hc := (mapAll_sat hd' (.seqOf l) h1 hv.1).2 hc
    simp only [seqOfSize, Option.bind_eq_bind, Option.bind_eq_some_iff] at h3
    obtain ⟨xs, h4, h5⟩ := h3
    have hk := sizes_ok (fun ac l h => elem_size h) (mapAll_sizeCons h1) h4 (serial_left ho.1)
    have hl := elems_of_sat h4 (sizeMinMax_some h5) hk.1 hk.2 (fun c h => hc c (sizeCons_sub acs c h))
    obtain ⟨m, hm1, hm2⟩ := forall₂_pad (R := fun v x => meaning ce v = some x) (Q := fun v _ => HasLayout ce v)
      (fun x hx => compile_object slim t _ ce x [] h2 hd hv.2 ho.2.2 (hs x hx) (hh x hx))
    have hlen := hm1.length_eq
    have hm1' : m.mapM (meaning ce) = some l := mapM_some_iff.2 hm1
    refine ⟨.seqOf m.length (m ++ List.replicate (r.2 - m.length) (zeroMem ce)), ?_, ?_⟩
    · rw [meaning, if_pos (by simp; omega)]
      by_cases e : r.1 = r.2
      · rw [if_pos e]
        have : r.2 - m.length = 0 := by omega
        simp [this, hm1']
      · rw [if_neg e, counted_pad m r.2 (by omega)]
        simp [hm1']
    · rw [HasLayout]
      refine ⟨by simp; omega, fun x hx => ?_⟩
      rcases List.mem_append.1 hx with h | h
      · exact forall₂_left hm2 x h
      · rw [List.eq_of_mem_replicate h]
        exact zeroMem_layout ce
  | .choice alts cs, w, ct, a, ex, h, hd, hv, ho, hs, hh => by
    rw [compile] at h
    simp only [Option.bind_eq_bind, Option.bind_eq_some_iff] at h
    obtain ⟨acs, h1, calts, h2, h3⟩ := h
    split at h3 <;> simp at h3
    subst h3
    rw [NTy.Has] at hh
    obtain ⟨i, v, rfl, hl⟩ := hh
    rw [NTy.Sat] at hs
    obtain ⟨_, i', v', e, hs⟩ := hs
    cases e
    rw [NTy.Distinct] at hd
    rw [NTy.Valued] at hv
    rw [NTy.OrdinaryIn] at ho
    obtain ⟨u, hm⟩ := compileAlts_object slim alts _ calts i v h2 hd.2 hv.2 ho.2 hs hl
    refine ⟨.choice (i + 1 : Nat) u, ?_, by simp only [HasLayout]⟩
    rw [meaning, if_pos (by omega)]
    have : ((i + 1 : Nat) : Int).toNat - 1 = i := by omega
    rw [this, hm]
    rfl
  | .ref md tas t cs, w, ct, a, ex, h, hd, hv, ho, hs, hh => by
    rw [compile] at h
    simp only [Option.bind_eq_bind, Option.bind_eq_some_iff] at h
    obtain ⟨acs, h1, ce, h2, size, h3, h4⟩ := h
    split at h4 <;> simp at h4
    subst h4
    rw [NTy.Has] at hh
    rw [NTy.Sat] at hs
    rw [NTy.Distinct] at hd
    rw [NTy.Valued] at hv
    rw [NTy.OrdinaryIn] at ho
    obtain ⟨v, hm, hlay⟩ := compile_object slim t _ ce a _ h2 hd hv.1 ho hs.1 hh
    exact ⟨v, by rw [meaning]; exact hm, by rw [HasLayout]; exact hlay⟩
theorem compileFields_object (slim : Bool) : ∀ (fs : NFields) (w : List XC) (cfs : CFields) (l : List (Option AV)), compileFields slim w fs = some cfs →
    fs.Distinct → fs.Valued → fs.Ordinary → fs.Sat l → fs.Has l → ∃ vs, meaningFields cfs vs = some l ∧ HasLayoutFields cfs vs
  | .nil, w, cfs, l, h, hd, hv, ho, hs, hh => by
    rw [compileFields] at h
    cases h
    rw [NFields.Has] at hh
    subst hh
    exact ⟨[], by rw [meaningFields], by rw [HasLayoutFields]; trivial⟩
  | .cons nm o t rest, w, cfs, l, h, hd, hv, ho, hs, hh => by
    rw [compileFields] at h
    simp only [Option.bind_eq_bind, Option.bind_eq_some_iff, Option.some.injEq] at h
    obtain ⟨co, h1, ct, h2, r, h3, rfl⟩ := h
    rw [NFields.Distinct] at hd
    rw [NFields.Valued] at hv
    rw [NFields.Ordinary] at ho
    cases l with
    | nil => rw [NFields.Has] at hh; exact hh.elim
    | cons x xs =>
      rw [NFields.Has] at hh
      rw [NFields.Sat] at hs
      obtain ⟨vs, hm, hlay⟩ := compileFields_object slim rest w r xs h3 hd.2 hv.2 ho.2.2 hs.2 hh.2.2
      cases x with
      | none =>
        refine ⟨(false, zeroMem ct) :: vs, ?_, by rw [HasLayoutFields]; exact ⟨zeroMem_layout ct, hlay⟩⟩
        cases co with
        | mandatory => exact absurd (childOpt_mandatory h1 rfl) (hh.1 rfl)
        | _ => simp [meaningFields, hm]
      | some y =>
        obtain ⟨v, hv1, hv2⟩ := compile_object slim t _ ct y [] h2 hd.1 hv.1 ho.2.1 (hs.1 y rfl) (hh.2.1 y rfl)
        refine ⟨(true, v) :: vs, ?_, by rw [HasLayoutFields]; exact ⟨hv2, hlay⟩⟩
        cases co <;> simp [meaningFields, hm, hv1]
theorem compileAlts_object (slim : Bool) : ∀ (alts : NAlts) (w : List XC) (calts : CAlts) (i : Nat) (v : AV), compileAlts slim w alts = some calts →
    alts.Distinct → alts.Valued → alts.Ordinary → alts.Sat i v → alts.Has i v → ∃ u, meaningAlt calts i u = some v
  | .nil, w, calts, i, v, h, hd, hv, ho, hs, hh => by
    rw [NAlts.Has] at hh
    exact hh.elim
  | .cons nm t rest, w, calts, i, v, h, hd, hv, ho, hs, hh => by
    rw [compileAlts] at h
    simp only [Option.bind_eq_bind, Option.bind_eq_some_iff, Option.some.injEq] at h
    obtain ⟨ct, h2, r, h3, rfl⟩ := h
    rw [NAlts.Distinct] at hd
    rw [NAlts.Valued] at hv
    rw [NAlts.Ordinary] at ho
    cases i with
    | zero =>
      rw [NAlts.Has] at hh
      rw [NAlts.Sat] at hs
      obtain ⟨u, hm, _⟩ := compile_object slim t _ ct v [] h2 hd.1 hv.1 ho.1 hs hh
      exact ⟨u, by rw [meaningAlt]; exact hm⟩
    | succ i =>
      rw [NAlts.Has] at hh
      rw [NAlts.Sat] at hs
      obtain ⟨u, hm⟩ := compileAlts_object slim rest w r i v h3 hd.2 hv.2 ho.2 hs hh
      exact ⟨u, by rw [meaningAlt]; exact hm⟩
end

end Asn1
