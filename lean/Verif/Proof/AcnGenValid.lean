import Verif.Spec.AcnGenRelay
import Verif.Proof.AcnGenSafe2
import Verif.Proof.GenValid
/-! What generated ACN decoders accept satisfies the constraints. -/
namespace Asn1

theorem strValid_of {alphabet : List Byte} {lo hi : Nat} {chars : List Byte} (hz : ∀ c ∈ chars, c ≠ 0#8)
    (h : (decide (lo ≤ chars.length ∧ chars.length ≤ hi) && chars.all alphabet.contains) = true) : StrValid alphabet lo hi chars := by
  simp only [Bool.and_eq_true, decide_eq_true_eq, List.all_eq_true] at h
  exact ⟨h.1.1, h.1.2, fun c hc => ⟨by simpa using h.2 c hc, hz c hc⟩⟩

theorem takeWhile_nz (l : List Byte) : ∀ c ∈ l.takeWhile (· ≠ 0#8), c ≠ 0#8 := fun c hc => by
  have := List.all_eq_true.1 (List.all_takeWhile (p := fun x : Byte => decide (x ≠ 0#8)) (l := l)) c hc
  simpa using this

theorem decStrAscii_nz (lo hi : Nat) : Post (decStrAscii lo hi) (fun l => ∀ c ∈ l, c ≠ 0#8) := by
  unfold decStrAscii
  exact Post.bind (fun p => Post.pure (fun _ => takeWhile_nz _))
theorem decStrNull_nz (hi : Nat) (nul : List Byte) : Post (decStrNull hi nul) (fun l => ∀ c ∈ l, c ≠ 0#8) := by
  unfold decStrNull
  exact Post.bind (fun p => Post.pure (fun _ => takeWhile_nz _))
theorem decStrExt_nz (hi : Nat) (x : Int) : Post (decStrExt hi x) (fun l => ∀ c ∈ l, c ≠ 0#8) := by
  unfold decStrExt
  exact Post.bind (fun p => Post.pure (fun _ => takeWhile_nz _))
theorem decStrIdx_nz (alphabet : List Byte) (hi : Nat) (x : Int) : Post (decStrIdx alphabet hi x) (fun l => ∀ c ∈ l, c ≠ 0#8) := by
  unfold decStrIdx
  exact Post.bind (fun p => Post.pure (fun _ => takeWhile_nz _))

theorem mUb_post {α : Type} {P : α → Prop} : Post (mUb : M (Bool × α)) P := by
  intro s a s' e
  simp [mUb] at e

theorem decBitsExt_packed (lo hi : Nat) (dmax : Option Int) (x : Int) :
    Post (decBitsExt lo hi dmax x) (fun r => ∃ w : List Bool, w.length = r.1 ∧ Packed w r.2) := by
  unfold decBitsExt
  have rd : ∀ n, Post (do let p ← readBits n; pure (p.1, (n, p.2))) (fun r : Nat × List Byte => ∃ w : List Bool, w.length = r.1 ∧ Packed w r.2) :=
    fun n => (readBits_packed n).bind' (fun a ha => Post.pure (fun _ => ha)) (fun _ => Post.false)
  refine Post.ite (fun _ => Post.ite (fun _ => rd hi) (fun _ => Post.false)) (fun _ => Post.ite (fun _ => ?_) (fun _ => Post.false))
  refine Post.bind (fun n => Post.ite (fun _ => ?_) (fun _ => rd n))
  exact (readBits_packed n).bind' (fun a ha => Post.ite (fun _ => mUb_post) (fun _ => Post.pure (fun _ => ha)))
    (fun a => Post.ite (fun _ => mUb_post) (fun _ => Post.false))

/-- What the presence flag of a component can be. -/
def AOpt.flagOk (o : AOpt) (e : Bool) : Prop :=
  match o with
  | .mandatory => e = true
  | .present => e = true
  | .absent => e = false
  | .optional _ _ => True

theorem presFlag_flagOk {o : AOpt} {bs bs' : List Bool} {env : DetEnv} {e : Bool} {s s' : BitStream}
    (h : presFlag o bs env s = .ok ((e, bs'), s')) : o.flagOk e := by
  cases o with
  | optional p d => exact trivial
  | mandatory =>
    simp only [presFlag, pure_run, Res.ok.injEq, Prod.mk.injEq] at h
    exact h.1.1.symm
  | absent =>
    simp only [presFlag, pure_run, Res.ok.injEq, Prod.mk.injEq] at h
    exact h.1.1.symm
  | present =>
    simp only [presFlag, pure_run, Res.ok.injEq, Prod.mk.injEq] at h
    exact h.1.1.symm

theorem Post.bindRaw {α β : Type} {f : M α} {k : α → M (Bool × β)} {P : β → Prop} (h : ∀ s a s', f s = .ok (a, s') → Post (k a) P) :
    Post (f >>= k) P := by
  intro s b s' e
  rw [bind_def] at e
  cases hf : f s with
  | ok p => rw [hf] at e; exact h s p.1 p.2 hf p.2 b s' e
  | ub => rw [hf] at e; cases e
  | abort => rw [hf] at e; cases e

theorem decItemsA_all {item : DetEnv → M (Bool × (Val × DetEnv))} {Q : Val → Prop} (h : ∀ env, Post (item env) (fun r => Q r.1)) :
    ∀ (n : Nat) (env : DetEnv) (acc : List Val), (∀ v ∈ acc, Q v) → Post (decItemsA item n env acc) (fun r => ∀ v ∈ r.1, Q v)
  | 0, env, acc, ha => Post.pure (fun _ => ha)
  | n + 1, env, acc, ha => by
    simp only [decItemsA]
    refine (h env).bind' (fun r hr => ?_) (fun _ => by simp only [Bool.false_eq_true, if_false]; exact Post.false)
    rw [if_pos rfl]
    refine decItemsA_all h n _ _ (fun v hv => ?_)
    rcases List.mem_append.1 hv with hv | hv
    · exact ha v hv
    · rw [List.mem_singleton.1 hv]; exact hr

mutual
theorem decA_satisfies : ∀ (t : ATy) (env : DetEnv), APrims t → Post (decA t env) (fun r => validA t r.1 = true → Satisfies t r.1)
  | .prim t, env, hp => by
    simp only [APrims] at hp
    simp only [decA]
    exact (decTy_valid t hp.1 hp.2.1 hp.2.2).bind' (fun a ha => Post.pure (fun _ h => by simp only [validA] at h; simp only [Satisfies]; exact ha h)) (fun _ => Post.false)
  | .leaf l, env, hp => by
    simp only [decA]
    refine Post.bind (fun p => Post.pure (fun _ h => ?_))
    simp only [validA] at h
    cases l with
    | int w r enc mf => simp only [leafVal, validLeaf] at h; simp only [leafVal, Satisfies]; exact rng_contains h
    | bool e => simp only [leafVal, Satisfies]
    | enum items valid enc => simp only [leafVal, validLeaf] at h; simp only [leafVal, Satisfies]; simpa using h
  | .nullPat pat n, env, hp => by
    simp only [decA]
    exact Post.bind (fun p => Post.pure (fun _ _ => by simp only [Satisfies]))
  | .real64 little _, env, hp => by
    simp only [decA]
    exact Post.bind (fun p => Post.pure (fun _ h => by simp only [validA] at h; simp only [Satisfies]; exact h))
  | .real32 little _, env, hp => by
    have hw : ∀ d : BitVec 32, (d.setWidth 64).toNat < 2 ^ 32 := fun d => by
      rw [BitVec.toNat_setWidth]
      have := d.isLt
      omega
    simp only [decA]
    refine Post.ite (fun _ => Post.bind (fun p => Post.pure (fun _ h => ?_))) (fun _ => Post.bind (fun p => Post.pure (fun _ h => ?_))) <;>
      (simp only [validA] at h; simp only [Satisfies]; exact ⟨h, hw _⟩)
  | .octets lo hi k dmax, env, hp => by
    simp only [decA]
    exact Post.bind (fun x => Post.bind (fun p => Post.pure (fun _ h => by simp only [validA, decide_eq_true_eq] at h; simp only [Satisfies]; exact h)))
  | .bits lo hi k dmax, env, hp => by
    simp only [decA]
    refine Post.bind (fun x => (decBitsExt_packed lo hi dmax x).bind' (fun p hp => Post.pure (fun _ h => ?_)) (fun _ => Post.false))
    simp only [validA, decide_eq_true_eq] at h
    simp only [Satisfies]
    exact ⟨h.1, h.2, hp⟩
  | .strAscii _ lo hi, env, hp => by
    simp only [decA]
    refine (decStrAscii_nz lo hi).bind' (fun p hp => Post.pure (fun _ h => ?_)) (fun _ => Post.false)
    simp only [validA] at h
    simp only [Satisfies]
    exact strValid_of hp h
  | .strNull _ lo hi nul, env, hp => by
    simp only [decA]
    refine (decStrNull_nz hi nul).bind' (fun p hp => Post.pure (fun _ h => ?_)) (fun _ => Post.false)
    simp only [validA] at h
    simp only [Satisfies]
    exact strValid_of hp h
  | .strExt _ lo hi k, env, hp => by
    simp only [decA]
    refine Post.bind (fun x => (decStrExt_nz hi x).bind' (fun p hp => Post.pure (fun _ h => ?_)) (fun _ => Post.false))
    simp only [validA] at h
    simp only [Satisfies]
    exact strValid_of hp h
  | .strIdx alphabet lo hi k, env, hp => by
    simp only [decA]
    refine Post.bind (fun x => (decStrIdx_nz alphabet hi x).bind' (fun p hp => Post.pure (fun _ h => ?_)) (fun _ => Post.false))
    simp only [validA] at h
    simp only [Satisfies]
    exact strValid_of hp h
  | .seq fs, env, hp => by
    simp only [APrims] at hp
    simp only [decA]
    refine Post.bind (fun b => Post.ite (fun _ => ?_) (fun _ => Post.false))
    refine (decAFields_satisfies fs b.2 env hp).bind' (fun p hp => Post.pure (fun _ h => ?_)) (fun _ => Post.false)
    simp only [validA] at h
    simp only [Satisfies]
    exact hp h
  | .seqOf lo hi k t, env, hp => by
    simp only [APrims] at hp
    simp only [decA]
    refine Post.bind (fun b => Post.ite (fun _ => ?_) (fun _ => Post.false))
    refine (decItemsA_all (Q := fun v => validA t v = true → Satisfies t v) (fun env => decA_satisfies t env hp) b.2 env [] (by simp)).bind'
      (fun p hp => Post.pure (fun _ h => ?_)) (fun _ => Post.false)
    simp only [validA, Bool.and_eq_true, decide_eq_true_eq, List.all_eq_true] at h
    simp only [Satisfies]
    exact ⟨h.1.1, h.1.2, fun v hv => hp v hv (h.2 v hv)⟩
  | .choice byDet alts, env, hp => by
    simp only [APrims] at hp
    simp only [decA]
    refine Post.ite (fun _ => ?_) (fun _ => Post.bind (fun b => Post.ite (fun _ => ?_) (fun _ => Post.false)))
    · refine (decAAltDet_satisfies alts 0 env hp).mono (fun r hr h => ?_)
      obtain ⟨i, v, h1, h2⟩ := hr
      rw [h1] at h ⊢
      rw [Nat.zero_add] at h ⊢
      simp only [validA] at h
      simp only [Satisfies]
      exact h2 h
    · refine (decAAlt_satisfies alts b.2.toNat env hp).bind' (fun p hp => Post.pure (fun _ h => ?_)) (fun _ => Post.false)
      simp only [validA] at h
      simp only [Satisfies]
      exact hp h
  | .ref args t, env, hp => by
    simp only [APrims] at hp
    simp only [decA]
    refine Post.bind (fun env' => (decA_satisfies t env' hp).bind' (fun p hp => Post.pure (fun _ h => ?_)) (fun _ => Post.false))
    simp only [validA] at h
    simp only [Satisfies]
    exact hp h
  | .align a t, env, hp => by
    simp only [APrims] at hp
    simp only [decA]
    refine Post.bind (fun _ => (decA_satisfies t env hp).mono (fun r hr h => ?_))
    simp only [validA] at h
    simp only [Satisfies]
    exact hr h
theorem decAFields_satisfies : ∀ (fs : AFields) (bs : List Bool) (env : DetEnv), APrimsFields fs →
    Post (decAFields fs bs env) (fun r => validAFields fs r.1 = true → SatisfiesFields fs r.1)
  | .nil, bs, env, hp => by
    simp only [decAFields]
    exact Post.pure (fun _ _ => by simp only [SatisfiesFields])
  | .asn1 o t rest, bs, env, hp => by
    simp only [APrimsFields] at hp
    simp only [decAFields]
    refine Post.bindRaw (fun s e s' he => ?_)
    have hfl := presFlag_flagOk (e := e.1) (bs' := e.2) he
    have hfirst : Post (if e.1 = true then decA t env else pure (true, (absentVal o, env)))
        (fun r => if e.1 = true then (validA t r.1 = true → Satisfies t r.1) else r.1 = absentVal o) := by
      refine Post.ite (fun h => ?_) (fun h => ?_)
      · simp only [h, if_true]; exact decA_satisfies t env hp.1
      · simp only [h, Bool.false_eq_true, if_false]; exact Post.pure (fun _ => rfl)
    refine hfirst.bind' (fun p hp1 => ?_) (fun _ => by simp only [Bool.false_eq_true, if_false]; exact Post.false)
    rw [if_pos rfl]
    refine (decAFields_satisfies rest e.2 p.2 hp.2).bind' (fun q hq => Post.pure (fun _ h => ?_)) (fun _ => Post.false)
    dsimp only at h ⊢
    obtain ⟨e1, e2⟩ := e
    dsimp only at hp1 hfl h ⊢
    cases o with
    | mandatory =>
      simp only [AOpt.flagOk] at hfl
      subst hfl
      simp only [validAFields, Bool.and_eq_true] at h
      simp only [SatisfiesFields]
      exact ⟨⟨trivial, hp1 h.1⟩, hq h.2⟩
    | present =>
      simp only [AOpt.flagOk] at hfl
      subst hfl
      simp only [validAFields, Bool.and_eq_true] at h
      simp only [SatisfiesFields]
      exact ⟨⟨trivial, hp1 h.1.2⟩, hq h.2⟩
    | absent =>
      simp only [AOpt.flagOk] at hfl
      subst hfl
      simp only [validAFields, Bool.and_eq_true] at h
      simp only [SatisfiesFields]
      exact ⟨⟨trivial, by simpa [absentVal] using hp1⟩, hq h.2⟩
    | optional pr d =>
      simp only [validAFields, Bool.and_eq_true] at h
      cases e1 with
      | true =>
        have h1 := h.1
        simp only [Bool.not_true, Bool.false_or] at h1
        cases d <;> (simp only [SatisfiesFields]; exact ⟨.inl ⟨trivial, hp1 h1⟩, hq h.2⟩)
      | false =>
        simp only [Bool.false_eq_true, if_false] at hp1
        cases d <;> (simp only [SatisfiesFields]; exact ⟨.inr ⟨trivial, by simpa [absentVal] using hp1⟩, hq h.2⟩)
  | .acn k a l rest, bs, env, hp => by
    simp only [APrimsFields] at hp
    simp only [decAFields]
    refine Post.bind (fun _ => Post.bind (fun p => Post.ite (fun _ => ?_) (fun _ => Post.false)))
    refine (decAFields_satisfies rest bs _ hp).mono (fun r hr h => ?_)
    simp only [validAFields] at h
    simp only [SatisfiesFields]
    exact hr h
  | .acnNull pat n rest, bs, env, hp => by
    simp only [APrimsFields] at hp
    simp only [decAFields]
    refine Post.bind (fun p => Post.ite (fun _ => ?_) (fun _ => Post.false))
    refine (decAFields_satisfies rest bs _ hp).mono (fun r hr h => ?_)
    simp only [validAFields] at h
    simp only [SatisfiesFields]
    exact hr h
theorem decAAlt_satisfies : ∀ (alts : AAlts) (i : Nat) (env : DetEnv), APrimsAlts alts →
    Post (decAAlt alts i env) (fun r => validAAlt alts i r.1 = true → SatisfiesAlt alts i r.1)
  | .nil, i, env, hp => by
    simp only [decAAlt]
    exact Post.false
  | .cons c t rest, 0, env, hp => by
    simp only [APrimsAlts] at hp
    simp only [decAAlt]
    refine (decA_satisfies t env hp.1).mono (fun r hr h => ?_)
    simp only [validAAlt] at h
    simp only [SatisfiesAlt]
    exact hr h
  | .cons c t rest, i + 1, env, hp => by
    simp only [APrimsAlts] at hp
    simp only [decAAlt]
    refine (decAAlt_satisfies rest i env hp.2).mono (fun r hr h => ?_)
    simp only [validAAlt] at h
    simp only [SatisfiesAlt]
    exact hr h
theorem decAAltDet_satisfies : ∀ (alts : AAlts) (i : Nat) (env : DetEnv), APrimsAlts alts →
    Post (decAAltDet alts i env) (fun r => ∃ j v, r.1 = .choice (i + j) v ∧ (validAAlt alts j v = true → SatisfiesAlt alts j v))
  | .nil, i, env, hp => by
    simp only [decAAltDet]
    exact Post.false
  | .cons c t rest, i, env, hp => by
    simp only [APrimsAlts] at hp
    simp only [decAAltDet]
    refine Post.bind (fun b => Post.ite (fun _ => ?_) (fun _ => ?_))
    · refine (decA_satisfies t env hp.1).bind' (fun p hp => Post.pure (fun _ => ⟨0, p.1, rfl, fun h => ?_⟩)) (fun _ => Post.false)
      simp only [validAAlt] at h
      simp only [SatisfiesAlt]
      exact hp h
    · refine (decAAltDet_satisfies rest (i + 1) env hp.2).mono (fun r hr => ?_)
      obtain ⟨j, v, h1, h2⟩ := hr
      refine ⟨j + 1, v, by rw [h1, show i + 1 + j = i + (j + 1) by omega], fun h => ?_⟩
      simp only [validAAlt] at h
      simp only [SatisfiesAlt]
      exact h2 h
end

/-- The final check of the function of a type assignment. -/
theorem decodeAcn_satisfies {t : ATy} (hp : APrims t) : Post (decodeAcn t) (Satisfies t) := by
  unfold decodeAcn
  simp only [decA, passArgs, pure_bind, bind_assoc]
  refine (decA_satisfies t _ hp).bind' (fun p hp => Post.pure (fun h => ?_)) (fun _ => Post.pure (fun h => by simp at h))
  simp only [Bool.true_and] at h
  exact hp h

end Asn1
