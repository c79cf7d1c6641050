import Verif.Proof.AcnGenTy
import Verif.Proof.RoundTrip
import Verif.Proof.GenCode
/-! `<type>_ACN_Encode` and `<type>_ACN_Decode`. -/
namespace Asn1

theorem roundTripAt_of {ε α : Type} {enc : M ε} {e : ε} {dec : M (Bool × α)} {v : α} {w : Nat → List Bool} {T : Prop}
    (he : AppendsAt enc e w) (hd : DecP T dec (fun x => x = v) w) : RoundTripAt enc e dec v (fun p => (w p).length) := by
  intro s bs hs hroom
  obtain ⟨s', hr, hs', hf⟩ := he s bs hs hroom
  have hsp := hs.pos
  have hpos : s'.pos = s.pos + (w s.pos).length := by
    rw [hs'.pos, hsp, List.length_append]
  refine ⟨s', hr, hpos, ?_, hf, ?_⟩
  · intro i hi
    rw [hs.pos] at hi
    rw [hs'.bits i (by rw [hf.count]; omega), hs.bits i (by omega), List.getElem?_append_left hi]
  · intro t hwf htp htc hag
    obtain ⟨rest, hrest⟩ := decSt_exists hwf (by omega)
    have hlen := hrest.pos
    have hsplit : rest = w t.pos ++ rest.drop (w t.pos).length := by
      conv => lhs; rw [← List.take_append_drop (w t.pos).length rest]
      congr 1
      apply List.ext_getElem?
      intro i
      by_cases hi : i < (w t.pos).length
      · have hi' := hi
        rw [htp] at hi'
        have hir : i < rest.length := by omega
        have h1 := hrest.bits i hir
        have h2 := hag (t.pos + i) (by omega) (by omega)
        rw [hsp] at hi'
        have h3 := hs'.bit_of (i := i) hi'
        rw [h1, htp, hs.pos, h3] at h2
        rw [List.getElem?_take, if_pos hi]
        rw [List.getElem?_eq_getElem hir, List.getElem?_eq_getElem hi'] at h2
        rw [List.getElem?_eq_getElem hir]
        simp only [htp, hsp, List.getElem?_eq_getElem hi']
        simpa using h2
      · rw [List.getElem?_eq_none (by simp; omega), List.getElem?_eq_none (by omega)]
    rw [hsplit] at hrest
    obtain ⟨a, t', h1, rfl, h2, h3, h4⟩ := hd.1 t _ hrest
    refine ⟨t', h1, ?_, h3, h4⟩
    have a := h2.pos
    have b := hrest.pos
    rw [List.length_append] at b
    rw [h4] at a
    rw [htp] at b a
    omega

theorem rejectsTruncatedAt_of {ε α : Type} {enc : M ε} {e : ε} {dec : M (Bool × α)} {w : Nat → List Bool} {T : Prop} {Q : α → Prop} (hT : T)
    (he : AppendsAt enc e w) (hd : DecP T dec Q w) : RejectsTruncatedAt enc e dec (fun p => (w p).length) := by
  intro s bs hs hroom
  obtain ⟨s', hr, hs', hf⟩ := he s bs hs hroom
  have hsp := hs.pos
  refine ⟨s', hr, ?_⟩
  intro t hwf htp hin hend hsl hag
  dsimp only at hend
  rw [← htp] at hend
  obtain ⟨rest, hrest⟩ := decSt_exists hwf hin
  have hlen := hrest.pos
  have hpre : rest <+: w t.pos := by
    refine ⟨(w t.pos).drop rest.length, ?_⟩
    have : rest = (w t.pos).take rest.length := by
      apply List.ext_getElem?
      intro i
      by_cases hi : i < rest.length
      · have h1 := hrest.bits i hi
        have h2 := hag (t.pos + i) (by omega) (by omega)
        have hw : i < (w t.pos).length := by omega
        have hi' := hw
        rw [htp, hsp] at hi'
        have h3 := hs'.bit_of (i := i) hi'
        rw [h1, htp, hs.pos, h3] at h2
        rw [List.getElem?_take, if_pos hi]
        rw [List.getElem?_eq_getElem hi, List.getElem?_eq_getElem hi'] at h2
        rw [List.getElem?_eq_getElem hi]
        simp only [htp, hsp, List.getElem?_eq_getElem hi']
        simpa using h2
      · rw [List.getElem?_eq_none (by omega), List.getElem?_eq_none (by simp; omega)]
    conv => lhs; lhs; rw [this]
    exact List.take_append_drop _ _
  obtain ⟨a, t', h1, h2, h3⟩ := hd.2 hT t rest hrest hsl hpre (fun h => by rw [h] at hlen; omega)
  exact ⟨a, t', h1, h2⟩

theorem encodeAcn_appends {t : ATy} {v : Val} (chk : Bool) (hok : AOk t) (hv : AcnValid t v) : AppendsAt (encodeAcn t v chk) true (acnCode t v) := by
  have hvalid := aValid_valid t _ v hv
  have h := encA_app (.ref [] t) (fun _ => []) [] DetEnv.empty v (by simp only [AOk]; exact ⟨by simp, by simp, hok⟩) (by simp only [AValid]; exact hv)
    (by intro k x h; simp [Demands] at h)
  have h := h.congr (w' := acnCode t v) (fun p => by simp only [acode, acnCode])
  intro s bs hs hr
  obtain ⟨e, s', h1, h2, h3⟩ := h s bs hs hr
  refine ⟨s', ?_, h2, h3⟩
  unfold encodeAcn
  rw [hvalid, if_neg (by simp), bind_ok h1]
  rfl

theorem decodeAcn_reads (T : Prop) {t : ATy} {v : Val} (hok : AcnOk t) (hv : AcnValid t v) (hT : T → ATight t) :
    DecP T (decodeAcn t) (fun x => x = v) (acnCode t v) := by
  have h := decA_reads T (.ref [] t) [] [] [] DetEnv.empty v (by simp only [AOk]; exact ⟨by simp, by simp, hok.1⟩)
    (by simp only [Scoped, List.map_nil]; exact ⟨by simp, hok.2⟩) (by simp only [AValid]; exact hv) (by simp [required])
    (by intro k hk; simp at hk) (by simp) (fun t => by simp only [ATight]; exact hT t)
  have h := h.congr (w' := acnCode t v) (fun p => by simp only [acode, acnCode])
  unfold decodeAcn
  exact DecP.map (h := fun x : Val × DetEnv => x.1) h (fun a ha => ha.1)

theorem decSt_inj {s : BitStream} {r1 r2 : List Bool} (d1 : DecSt s r1) (d2 : DecSt s r2) : r1 = r2 := by
  have l1 := d1.pos
  have l2 := d2.pos
  apply List.ext_getElem?
  intro i
  by_cases hi : i < r1.length
  · have b1 := d1.bits i hi
    have b2 := d2.bits i (by omega)
    rw [b1] at b2
    rw [List.getElem?_eq_getElem hi, List.getElem?_eq_getElem (show i < r2.length by omega)] at b2 ⊢
    simpa using b2
  · rw [List.getElem?_eq_none (by omega), List.getElem?_eq_none (by omega)]

theorem decSt_at (p : Nat) (w : List Bool) : ∃ s pad, DecSt s (w ++ pad) ∧ s.pos = p := by
  obtain ⟨r, h1, h2⟩ := packed_exists (List.replicate p false ++ w)
  have h0 : DecSt ⟨r, r.length, 0, 0⟩ (List.replicate p false ++ (w ++ List.replicate (8 * r.length - (p + w.length)) false)) := by
    refine ⟨⟨by simp, by simp⟩, ?_, ?_⟩
    · simp [BitStream.pos] at h1 ⊢; omega
    · intro i hi
      rw [← List.append_assoc, show p + w.length = (List.replicate p false ++ w).length by simp, ← h2]
      simp [BitStream.pos, bytesBits_getD]
  refine ⟨_, _, atPos_decSt h0 (n := p) (by simp), ?_⟩
  rw [atPos_pos]
  simp [BitStream.pos]

theorem decP_unique {α : Type} {dec : M (Bool × α)} {v1 v2 : α} {w1 w2 : Nat → List Bool} {T1 T2 : Prop} (h1 : DecP T1 dec (fun x => x = v1) w1)
    (h2 : DecP T2 dec (fun x => x = v2) w2) (p : Nat) {r1 r2 : List Bool} (h : w1 p ++ r1 = w2 p ++ r2) : v1 = v2 ∧ r1 = r2 := by
  obtain ⟨s, pad, hs, hp⟩ := decSt_at p (w1 p ++ r1)
  obtain ⟨x, a, ha, hx, da, _⟩ := h1.1 s (r1 ++ pad) (by rw [hp, ← List.append_assoc]; exact hs)
  obtain ⟨y, b, hb, hy, db, _⟩ := h2.1 s (r2 ++ pad) (by rw [hp, ← List.append_assoc, ← h]; exact hs)
  rw [ha] at hb
  simp only [Res.ok.injEq, Prod.mk.injEq, true_and] at hb
  obtain ⟨rfl, rfl⟩ := hb
  exact ⟨hx.symm.trans hy, List.append_cancel_right (decSt_inj da db)⟩

/-! ### Disagreeing requirements -/

theorem mergeUpd_agree {us : List Upd} {x y : Int} (h : mergeUpd us ≠ .fail) (hx : Upd.set x ∈ us) (hy : Upd.set y ∈ us) : x = y := by
  match us, h, hx, hy with
  | [], _, hx, _ => simp at hx
  | [u], _, hx, hy =>
    simp only [List.mem_singleton] at hx hy
    rw [← hx] at hy
    simpa using hy.symm
  | u :: u' :: us, h, hx, hy =>
    simp only [mergeUpd] at h
    generalize hl : u :: u' :: us = l at h hx hy
    split at h
    · exact absurd rfl h
    · have mem : ∀ z, Upd.set z ∈ l → z ∈ l.filterMap Upd.val? := fun z hz => List.mem_filterMap.2 ⟨_, hz, rfl⟩
      split at h
      · rename_i e
        have := mem x hx
        rw [e] at this
        simp at this
      · rename_i z zs e
        split at h
        · rename_i hall
          have eq : ∀ w, Upd.set w ∈ l → w = z := by
            intro w hw
            have := mem w hw
            rw [e] at this
            rcases List.mem_cons.mp this with rfl | hm
            · rfl
            · simpa using List.all_eq_true.mp hall w hm
          rw [eq x hx, eq y hy]
        · exact absurd rfl h

/-- What an encoder that returned TRUE has found: no update of a determinant it wrote failed. -/
def NoFail (f : M (Bool × DetEnv)) (P : Prop) : Prop := ∀ s e s', f s = .ok ((true, e), s') → P

theorem run_bind {α β : Type} {f : M α} {g : α → M β} {s : BitStream} {r : β × BitStream} (h : (f >>= g) s = .ok r) :
    ∃ a s1, f s = .ok (a, s1) ∧ g a s1 = .ok r := by
  cases hf : f s with
  | ok p =>
    obtain ⟨a, s1⟩ := p
    rw [bind_ok hf] at h
    exact ⟨a, s1, rfl, h⟩
  | ub => simp only [bind, hf] at h; cases h
  | abort => simp only [bind, hf] at h; cases h

mutual
theorem encA_nofail : ∀ (t : ATy) (need : Nat → List Upd) (env : DetEnv) (v : Val), AHas t v →
    NoFail (encA t need env v) (∀ k ∈ inserted t v, mergeUpd (need k) ≠ .fail)
  | .seq fs, need, env, v, hv => by
    cases v <;> simp only [AHas] at hv
    rename_i vs
    intro s e s' h
    simp only [encA] at h
    obtain ⟨_, s1, _, h⟩ := run_bind h
    simp only [inserted]
    exact encAFields_nofail fs need env vs hv s1 e s' h
  | .choice byDet alts, need, env, v, hv => by
    cases v <;> simp only [AHas] at hv
    rename_i i v
    intro s e s' h
    simp only [encA] at h
    rw [if_pos (aHasAlt_lt hv)] at h
    obtain ⟨_, s1, _, h⟩ := run_bind h
    simp only [inserted]
    exact encAAlt_nofail alts i need env v hv s1 e s' h
  | .align a t, need, env, v, hv => by
    simp only [AHas] at hv
    intro s e s' h
    simp only [encA] at h
    obtain ⟨_, s1, _, h⟩ := run_bind h
    simp only [inserted]
    exact encA_nofail t need env v hv s1 e s' h
  | .prim _, _, _, _, _ => fun _ _ _ _ => by simp [inserted]
  | .leaf _, _, _, _, _ => fun _ _ _ _ => by simp [inserted]
  | .nullPat _ _, _, _, _, _ => fun _ _ _ _ => by simp [inserted]
  | .real64 _ _, _, _, _, _ => fun _ _ _ _ => by simp [inserted]
  | .real32 _ _, _, _, _, _ => fun _ _ _ _ => by simp [inserted]
  | .octets _ _ _ _, _, _, _, _ => fun _ _ _ _ => by simp [inserted]
  | .bits _ _ _ _, _, _, _, _ => fun _ _ _ _ => by simp [inserted]
  | .strAscii _ _ _, _, _, _, _ => fun _ _ _ _ => by simp [inserted]
  | .strNull _ _ _ _, _, _, _, _ => fun _ _ _ _ => by simp [inserted]
  | .strExt _ _ _ _, _, _, _, _ => fun _ _ _ _ => by simp [inserted]
  | .strIdx _ _ _ _, _, _, _, _ => fun _ _ _ _ => by simp [inserted]
  | .seqOf _ _ _ _, _, _, _, _ => fun _ _ _ _ => by simp [inserted]
  | .ref _ _, _, _, _, _ => fun _ _ _ _ => by simp [inserted]
theorem encAFields_nofail : ∀ (fs : AFields) (need : Nat → List Upd) (env : DetEnv) (vs : List (Bool × Val)), AHasFields fs vs →
    NoFail (encAFields fs need env vs) (∀ k ∈ insertedFields fs vs, mergeUpd (need k) ≠ .fail)
  | .nil, _, _, _, _ => fun _ _ _ _ => by simp [insertedFields]
  | .asn1 o t rest, _, _, [], h => by cases o <;> simp [AHasFields] at h
  | .asn1 o t rest, need, env, (e, v) :: vs, hv => by
    intro s e' s' h
    simp only [encAFields] at h
    obtain ⟨r, s1, h1, h2⟩ := run_bind h
    have hr : r.1 = true := by
      cases hr : r.1
      · rw [hr, if_neg (by simp)] at h2; cases h2
      · rfl
    rw [hr, if_pos rfl] at h2
    have hrest : AHasFields rest vs := by
      cases o with
      | optional p d => cases d <;> (simp only [AHasFields] at hv; exact hv.2)
      | _ => simp only [AHasFields] at hv; exact hv.2
    have ih := encAFields_nofail rest need r.2 vs hrest s1 e' s' h2
    obtain ⟨b, r2⟩ := r
    simp only at hr; subst hr
    have hc : e = true → ∀ k ∈ inserted t v, mergeUpd (need k) ≠ .fail := by
      intro he
      subst he
      have hd : (encA t need env v) s = .ok ((true, r2), s1) ∧ AHas t v := by
        cases o with
        | optional p d => cases d <;> simp only [AHasFields] at hv <;> exact ⟨by simpa using h1, by simpa using hv.1⟩
        | mandatory => simp only [AHasFields] at hv; exact ⟨h1, hv.1.2⟩
        | present => simp only [AHasFields] at hv; exact ⟨h1, hv.1.2⟩
        | absent => simp [AHasFields] at hv
      exact encA_nofail t need env v hd.2 s r2 s1 hd.1
    simp only [insertedFields]
    intro k hk
    rcases List.mem_append.mp hk with hk | hk
    · cases e
      · simp at hk
      · exact hc rfl k (by simpa using hk)
    · exact ih k hk
  | .acn k a l rest, need, env, vs, hv => by
    simp only [AHasFields] at hv
    intro s e s' h
    simp only [encAFields] at h
    simp only [insertedFields]
    cases hm : mergeUpd (need k) with
    | fail => rw [hm] at h; cases h
    | skip =>
      rw [hm] at h
      simp only at h
      cases he : env k with
      | none => rw [he] at h; cases h
      | some x =>
        rw [he] at h
        simp only at h
        obtain ⟨_, s1, _, h⟩ := run_bind h
        obtain ⟨r, s2, _, h⟩ := run_bind h
        cases r
        · cases h
        · intro j hj
          rcases List.mem_cons.mp hj with rfl | hj
          · rw [hm]; simp
          · exact encAFields_nofail rest need env vs hv s2 e s' h j hj
    | set x =>
      rw [hm] at h
      have hk : (env.set k x) k = some x := by simp [DetEnv.set]
      simp only [hk] at h
      obtain ⟨_, s1, _, h⟩ := run_bind h
      obtain ⟨r, s2, _, h⟩ := run_bind h
      cases r
      · cases h
      · intro j hj
        rcases List.mem_cons.mp hj with rfl | hj
        · rw [hm]; simp
        · exact encAFields_nofail rest need (env.set k x) vs hv s2 e s' h j hj
  | .acnNull pat n rest, need, env, vs, hv => by
    simp only [AHasFields] at hv
    intro s e s' h
    simp only [encAFields] at h
    obtain ⟨_, s1, _, h⟩ := run_bind h
    simp only [insertedFields]
    exact encAFields_nofail rest need env vs hv s1 e s' h
theorem encAAlt_nofail : ∀ (alts : AAlts) (i : Nat) (need : Nat → List Upd) (env : DetEnv) (v : Val), AHasAlt alts i v →
    NoFail (encAAlt alts i need env v) (∀ k ∈ insertedAlt alts i v, mergeUpd (need k) ≠ .fail)
  | .nil, _, _, _, _, h => by simp [AHasAlt] at h
  | .cons c t rest, 0, need, env, v, hv => by
    simp only [AHasAlt] at hv
    intro s e s' h
    simp only [encAAlt] at h
    simp only [insertedAlt]
    exact encA_nofail t need env v hv s e s' h
  | .cons c t rest, i + 1, need, env, v, hv => by
    simp only [AHasAlt] at hv
    intro s e s' h
    simp only [encAAlt] at h
    simp only [insertedAlt]
    exact encAAlt_nofail rest i need env v hv s e s' h
end

theorem encodeAcn_agree {t : ATy} {v : Val} {chk : Bool} {s s' : BitStream} (hok : AOk t) (hv : AHas t v) (h : encodeAcn t v chk s = .ok (true, s'))
    {k : Nat} (hk : k ∈ inserted t v) {x y : Int} (hx : (k, x) ∈ required t v) (hy : (k, y) ∈ required t v) : x = y := by
  unfold encodeAcn at h
  split at h
  · cases h
  · obtain ⟨r, s1, h1, h2⟩ := run_bind h
    simp only [encA] at h1
    obtain ⟨r0, s0, h0, h1⟩ := run_bind h1
    obtain ⟨b, e⟩ := r0
    simp only [pure_run, Res.ok.injEq, Prod.mk.injEq] at h1 h2
    obtain ⟨rfl, rfl⟩ := h1
    obtain ⟨hb, rfl⟩ := h2
    simp only at hb
    subst hb
    have := encA_nofail t _ _ v hv s e _ h0 k hk
    obtain ⟨_, h2⟩ := upd_sets t v k hok hv
    exact mergeUpd_agree this ((h2 x).2 hx) ((h2 y).2 hy)

end Asn1
