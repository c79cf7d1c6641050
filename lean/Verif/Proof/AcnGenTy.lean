import Verif.Proof.AcnGenDec
/-! The decoder of every admissible type. -/
namespace Asn1

/-- What a decoder leaves behind: the value, the determinants of before, and the determinants it inserts. -/
def DecPost {α : Type} (v : α) (av pr : List Nat) (rq : List (Nat × Int)) (env : DetEnv) (r : α × DetEnv) : Prop :=
  r.1 = v ∧ (∀ k ∈ av, r.2 k = env k) ∧ EnvOk pr rq r.2

theorem DecPost.same {α : Type} {v : α} {av : List Nat} {rq : List (Nat × Int)} {env : DetEnv} : DecPost v av [] rq env (v, env) :=
  ⟨rfl, fun _ _ => rfl, by intro k hk; simp at hk⟩

theorem decItemsA_reads {T : Prop} {item : DetEnv → M (Bool × (Val × DetEnv))} {c : Val → Nat → List Bool} {av : List Nat} :
    ∀ (vs : List Val) (env : DetEnv) (acc : List Val),
    (∀ v ∈ vs, ∀ env, DecP T (item env) (fun r => r.1 = v ∧ ∀ k ∈ av, r.2 k = env k) (c v)) →
    DecP T (decItemsA item vs.length env acc) (fun r => r.1 = acc ++ vs ∧ ∀ k ∈ av, r.2 k = env k) (itemsCode c vs)
  | [], env, acc, _ => by
    simp only [List.length_nil, decItemsA]
    exact DecP.pure ⟨by simp, fun _ _ => rfl⟩
  | v :: vs, env, acc, h => by
    simp only [List.length_cons, decItemsA]
    refine DecP.bind (g := fun r : Val × DetEnv => decItemsA item vs.length r.2 (acc ++ [r.1])) (z := fun p => (acc, p.2.2)) (h v (by simp) env) ?_
    intro r hr
    refine (decItemsA_reads vs r.2 (acc ++ [r.1]) (fun v' hv' => h v' (by simp [hv']))).post ?_
    intro a ha
    exact ⟨by rw [ha.1, hr.1]; simp, fun k hk => (ha.2 k hk).trans (hr.2 k hk)⟩

theorem readPattern {pat : List Byte} {n : Nat} (h : n ≤ 8 * pat.length) : Reads (readBitPattern pat n) (true, true) ((bytesBits pat).take n) ∧
    Short (readBitPattern pat n) ((bytesBits pat).take n) := by
  have hl : ((bytesBits pat).take n).length = n := by
    rw [List.length_take, bytesBits_length]; omega
  have := readBitPattern_reads h hl
  rw [decide_eq_true rfl] at this
  exact this

theorem requiredAlt_conds {k : Nat} {alts : AAlts} (hT : alts.Told) {c : List (Nat × Int)} (hc : c ∈ alts.conds) (hk : k ∈ c.map (·.1)) : k ∈ alts.keys :=
  ((hT.1 c hc).2 k).mp hk

mutual
theorem decA_reads (T : Prop) : ∀ (t : ATy) (av ctx : List Nat) (rq : List (Nat × Int)) (env : DetEnv) (v : Val), AOk t → Scoped av ctx t → AValid t rq v →
    (∀ q ∈ required t v, q ∈ rq) → EnvOk ctx rq env → ctx ⊆ av → (T → ATight t) →
    DecP T (decA t env) (DecPost v av (provides t) rq env) (acode t rq v)
  | .prim t, av, ctx, rq, env, v, ho, hsc, h, hrq, he, hca, hT => by
    simp only [AValid] at h
    simp only [AOk] at ho
    have e : ∀ p, code false t v = acode (.prim t) rq v p := fun p => by simp only [acode]
    refine DecP.congr (w := fun _ => code false t v) ?_ e
    simp only [decA, provides]
    have d := decTy_reads true t v ho.1 h
    exact DecP.of (h := fun x => (x, env)) d.1
      (fun hT' => (d.2 ⟨by have := hT hT'; simpa only [ATight] using this, fun e => by cases e⟩).strong (fun a h => by have := h.1; cases this)) DecPost.same
  | .leaf l, av, ctx, rq, env, v, ho, hsc, h, hrq, he, hca, hT => by
    simp only [AValid] at h
    obtain ⟨x, h1, h2, h3, h4⟩ := leafVal_appends h
    refine DecP.congr (w := fun _ => leafCode l x) ?_ (fun p => by simp only [acode, h4])
    simp only [decA, provides]
    have d := decLeaf_reads h3
    rw [h2]
    exact DecP.of (h := fun x => (leafVal l x, env)) d.1 (fun _ => d.2) DecPost.same
  | .nullPat pat n, av, ctx, rq, env, v, ho, hsc, h, hrq, he, hca, hT => by
    cases v <;> simp only [AValid] at h
    simp only [AOk] at ho
    refine DecP.congr (w := fun _ => (bytesBits pat).take n) ?_ (fun p => by simp only [acode])
    simp only [decA, provides]
    have d := readPattern ho
    exact DecP.mapAnd (c := fun b => b) (h := fun _ => (Val.null, env)) (DecP.of' (Q := fun b => b = true) d.1 (fun _ => d.2) rfl)
      (fun a ha => ⟨ha, DecPost.same⟩)
  | .real64 little holds, av, ctx, rq, env, v, ho, hsc, h, hrq, he, hca, hT => by
    cases v <;> simp only [AValid] at h
    rename_i d
    refine DecP.congr (w := fun _ => bytesBits (if little then (bigImage 8 d.toNat).reverse else bigImage 8 d.toNat)) ?_ (fun p => by simp only [acode])
    simp only [decA, provides]
    have eb : bigImage 8 d.toNat = (memImage 8 (d : BitVec (8 * 8))).reverse := (bigImage_eq (size := 8) d).symm
    cases little
    · have r := acnDecRealBig_reads (size := 8) d
      simp only [Bool.false_eq_true, if_false]
      rw [eb]
      exact DecP.of (h := fun x => (Val.real x, env)) r.1 (fun _ => r.2) DecPost.same
    · have r := acnDecRealLittle_reads (size := 8) d
      simp only [if_true]
      rw [eb, List.reverse_reverse]
      exact DecP.of (h := fun x => (Val.real x, env)) r.1 (fun _ => r.2) DecPost.same
  | .real32 little holds, av, ctx, rq, env, v, ho, hsc, h, hrq, he, hca, hT => by
    cases v <;> simp only [AValid] at h
    rename_i d
    refine DecP.congr (w := fun _ => bytesBits (if little then (bigImage 4 d.toNat).reverse else bigImage 4 d.toNat)) ?_ (fun p => by simp only [acode])
    simp only [decA, provides]
    have e4 : BitVec.toNat (w := 8 * 4) (d.setWidth 32) = d.toNat := setWidth_big h.2
    have eb : bigImage 4 d.toNat = (memImage 4 (d.setWidth 32 : BitVec (8 * 4))).reverse := by rw [bigImage_eq, e4]
    have back : (BitVec.setWidth 64 (d.setWidth 32 : BitVec (8 * 4))) = d := by
      apply BitVec.eq_of_toNat_eq
      rw [BitVec.toNat_setWidth, e4]
      omega
    cases little
    · have r := acnDecRealBig_reads (size := 4) (d.setWidth 32)
      simp only [Bool.false_eq_true, if_false]
      rw [eb]
      exact DecP.of (h := fun x => (Val.real (BitVec.setWidth 64 x), env)) r.1 (fun _ => r.2) (by rw [back]; exact DecPost.same)
    · have r := acnDecRealLittle_reads (size := 4) (d.setWidth 32)
      simp only [if_true]
      rw [eb, List.reverse_reverse]
      refine ⟨fun s rest hs => ?_, fun hT' => by have := hT hT'; simp [ATight] at this⟩
      obtain ⟨s', h1, h2, h3, h4⟩ := r.1 s rest hs
      exact ⟨(.real d, env), s', by rw [bind_ok h1]; simp only [pure_run, back], DecPost.same, h2, h3, h4⟩
  | .octets lo hi k dmax, av, ctx, rq, env, v, ho, hsc, h, hrq, he, hca, hT => by
    cases v <;> simp only [AValid] at h
    rename_i arr
    simp only [AOk] at ho
    simp only [Scoped] at hsc
    refine DecP.congr (w := fun _ => bytesBits arr) ?_ (fun p => by simp only [acode])
    simp only [decA, provides, he.get hsc (hrq (k, (arr.length : Int)) (by simp [required])), pure_bind]
    have d := decOctetsExt_reads dmax ho.2 h.1 h.2
    exact DecP.of (h := fun x => (Val.octets x, env)) d.1 (fun _ => d.2) DecPost.same
  | .bits lo hi k dmax, av, ctx, rq, env, v, ho, hsc, h, hrq, he, hca, hT => by
    cases v <;> simp only [AValid] at h
    rename_i n arr
    obtain ⟨h1, h2, w, rfl, hw⟩ := h
    simp only [AOk] at ho
    simp only [Scoped] at hsc
    refine DecP.congr (w := fun _ => (bytesBits arr).take w.length) ?_ (fun p => by simp only [acode])
    simp only [decA, provides, he.get hsc (hrq (k, (w.length : Int)) (by simp [required])), pure_bind]
    have d := decBitsExt_reads dmax ho.2 h1 h2 hw
    exact DecP.of (h := fun x : Nat × List Byte => (Val.bits x.1 x.2, env)) d.1 (fun _ => d.2) DecPost.same
  | .strAscii alphabet lo hi, av, ctx, rq, env, v, ho, hsc, h, hrq, he, hca, hT => by
    cases v <;> simp only [AValid] at h
    rename_i chars
    simp only [AOk] at ho
    refine DecP.congr (w := fun _ => constrainedCode lo hi chars.length ++ bytesBits chars) ?_ (fun p => by simp only [acode])
    simp only [decA, provides]
    have d := decStrAscii_reads ho.2 h
    exact DecP.of (h := fun x => (Val.str x, env)) d.1 (fun _ => d.2) DecPost.same
  | .strNull alphabet lo hi nul, av, ctx, rq, env, v, ho, hsc, h, hrq, he, hca, hT => by
    cases v <;> simp only [AValid] at h
    rename_i chars
    simp only [AOk] at ho
    refine DecP.congr (w := fun _ => bytesBits (chars ++ nul)) ?_ (fun p => by simp only [acode])
    simp only [decA, provides]
    have d := decStrNull_reads ho.2.2.1 ho.2.2.2 h.1 h.2
    exact DecP.of (h := fun x => (Val.str x, env)) d.1 (fun _ => d.2) DecPost.same
  | .strExt alphabet lo hi k, av, ctx, rq, env, v, ho, hsc, h, hrq, he, hca, hT => by
    cases v <;> simp only [AValid] at h
    rename_i chars
    simp only [Scoped] at hsc
    refine DecP.congr (w := fun _ => bytesBits chars) ?_ (fun p => by simp only [acode])
    simp only [decA, provides, he.get hsc (hrq (k, (chars.length : Int)) (by simp [required])), pure_bind]
    have d := decStrExt_reads h
    exact DecP.of (h := fun x => (Val.str x, env)) d.1 (fun _ => d.2) DecPost.same
  | .strIdx alphabet lo hi k, av, ctx, rq, env, v, ho, hsc, h, hrq, he, hca, hT => by
    cases v <;> simp only [AValid] at h
    rename_i chars
    simp only [AOk] at ho
    simp only [Scoped] at hsc
    refine DecP.congr (w := fun _ => indexCode alphabet chars) ?_ (fun p => by simp only [acode])
    simp only [decA, provides, he.get hsc (hrq (k, (chars.length : Int)) (by simp [required])), pure_bind]
    have d := decStrIdx_reads ho.2.2.2.1 ho.2.2.2.2 h
    exact DecP.of (h := fun x => (Val.str x, env)) d.1 (fun _ => d.2) DecPost.same
  | .seq fs, av, ctx, rq, env, v, ho, hsc, h, hrq, he, hca, hT => by
    cases v <;> simp only [AValid] at h
    rename_i vs
    simp only [AOk] at ho
    simp only [Scoped] at hsc
    simp only [required] at hrq
    refine DecP.congr (w := followedBy (fun _ => presACode fs vs) (acodeFields fs rq vs)) ?_ (fun p => by simp only [acode])
    simp only [decA, provides]
    have d := decPresA_reads fs rq vs h
    refine DecP.bind (g := fun b : List Bool => do let p ← decAFields fs b env; pure (p.1, (Val.seq p.2.1, p.2.2))) (z := fun _ => (Val.seq [], env))
      (DecP.of' (Q := fun b => b = presACode fs vs) d.1 (fun _ => d.2) rfl) ?_
    rintro b rfl
    exact DecP.map (h := fun x : List (Bool × Val) × DetEnv => (Val.seq x.1, x.2))
      (decAFields_reads T fs av ctx rq env vs ho hsc h hrq he hca (fun t => by have := hT t; simpa only [ATight] using this))
      (fun a ha => ⟨by rw [ha.1], ha.2.1, ha.2.2⟩)
  | .seqOf lo hi k t, av, ctx, rq, env, v, ho, hsc, h, hrq, he, hca, hT => by
    cases v <;> simp only [AValid] at h
    rename_i vs
    simp only [AOk] at ho
    simp only [Scoped] at hsc
    obtain ⟨h1, h2, h3⟩ := h
    have items : ∀ n, n = vs.length → DecP T (do let p ← decItemsA (fun env => decA t env) n env []; pure (p.1, (Val.seqOf p.2.1, p.2.2)))
        (DecPost (.seqOf vs) av [] rq env) (itemsCode (fun v => acode t (required t v) v) vs) := by
      rintro n rfl
      refine DecP.map (h := fun x : List Val × DetEnv => (Val.seqOf x.1, x.2)) (decItemsA_reads (av := av) vs env [] ?_)
        (fun a ha => ⟨by rw [ha.1]; rfl, ha.2, by intro k hk; simp at hk⟩)
      intro v hv env'
      exact (decA_reads T t av [] (required t v) env' v ho.2.2 hsc.2 (h3 v hv) (fun q hq => hq) (by intro k hk; simp at hk) (by simp)
        (fun t => by have := hT t; simpa only [ATight] using this)).post (fun a ha => ⟨ha.1, ha.2.1⟩)
    cases k with
    | none =>
      refine DecP.congr (w := followedBy (fun _ => constrainedCode lo hi vs.length) (itemsCode (fun v => acode t (required t v) v) vs)) ?_
        (fun p => by simp only [acode])
      simp only [decA, provides]
      refine DecP.bind (g := fun n : Nat => do let p ← decItemsA (fun env => decA t env) n env []; pure (p.1, (Val.seqOf p.2.1, p.2.2)))
        (z := fun _ => (Val.seqOf [], env)) (Q := fun n => n = vs.length) ?_ items
      simp only [decCount]
      split
      · rename_i e
        rw [e, constrainedCode_self]
        exact DecP.pure (by omega)
      · have d := decodeConstraintWholeNumber_reads (lo := (lo : Int)) (hi := hi) (v := vs.length) (by omega) (by omega) (by omega) (by omega) (by omega)
        exact DecP.of (h := fun x : Int => x.toNat) d.1 (fun _ => d.2) (by simp)
    | some j =>
      refine DecP.congr (w := followedBy (fun _ => []) (itemsCode (fun v => acode t (required t v) v) vs)) ?_
        (fun p => by simp only [acode, followedBy, List.nil_append, List.length_nil, Nat.add_zero])
      simp only [decA, provides]
      refine DecP.bind (g := fun n : Nat => do let p ← decItemsA (fun env => decA t env) n env []; pure (p.1, (Val.seqOf p.2.1, p.2.2)))
        (z := fun _ => (Val.seqOf [], env)) (Q := fun n => n = vs.length) ?_ items
      simp only [decCount, he.get (hsc.1 j rfl) (hrq (j, (vs.length : Int)) (by simp [required])), pure_bind, ext_cond h1 h2, if_true]
      split
      · exact DecP.pure (by omega)
      · rw [extCount_nat (by omega)]
        exact DecP.pure rfl
  | .choice byDet alts, av, ctx, rq, env, v, ho, hsc, h, hrq, he, hca, hT => by
    cases v <;> simp only [AValid] at h
    rename_i i v
    simp only [AOk] at ho
    simp only [Scoped] at hsc
    simp only [required] at hrq
    have hi := aValidAlt_lt h
    have hra : ∀ q ∈ requiredAlt alts i v, q ∈ rq := fun q hq => hrq q (by simp [hq])
    have hTa : T → ATightAlts alts := fun t => by have := hT t; simpa only [ATight] using this
    refine DecP.congr (w := followedBy (fun _ => if byDet then [] else constrainedCode 0 ((alts.length : Int) - 1) i) (acodeAlt alts i rq v)) ?_
      (fun p => by simp only [acode])
    simp only [decA, provides]
    cases byDet
    · simp only [Bool.false_eq_true, if_false]
      have d := decodeConstraintWholeNumber_reads (lo := 0) (hi := (alts.length : Int) - 1) (v := i) (by omega) (by omega) (by omega) (by omega) (by omega)
      refine DecP.bind (g := fun q : Int => do let p ← decAAlt alts q.toNat env; pure (p.1, (Val.choice q.toNat p.2.1, p.2.2)))
        (z := fun _ => (Val.choice 0 .null, env)) (DecP.of' (Q := fun q => q = (i : Int)) d.1 (fun _ => d.2) rfl) ?_
      rintro q rfl
      rw [Int.toNat_natCast]
      exact DecP.map (h := fun x : Val × DetEnv => (Val.choice i x.1, x.2)) (decAAlt_reads T alts i av ctx rq env v ho.2.2.2 hsc.2 h hra he hca hTa)
        (fun a ha => ⟨by rw [ha.1], ha.2⟩)
    · simp only [if_true]
      refine DecP.congr (w := acodeAlt alts i rq v) ?_ (fun p => by simp only [followedBy, List.nil_append, List.length_nil, Nat.add_zero])
      have := decAAltDet_reads T alts i 0 av ctx rq env v ho.2.2.2 hsc.2 h hra he hca hTa
        (fun c hc q hq => hsc.1 rfl _ (requiredAlt_conds (ho.2.2.1 rfl) hc (List.mem_map_of_mem hq))) (ho.2.2.1 rfl).2
        (fun q hq => hrq q (by simp only [if_true]; exact List.mem_append_left _ hq))
      rwa [Nat.zero_add] at this
  | .ref args t, av, ctx, rq, env, v, ho, hsc, h, hrq, he, hca, hT => by
    simp only [AValid] at h
    simp only [AOk] at ho
    simp only [Scoped] at hsc
    refine DecP.congr (w := acode t (required t v) v) ?_ (fun p => by simp only [acode])
    simp only [decA, provides]
    obtain ⟨env', e1, e2⟩ := passArgs_ok he hsc.1 ho.1
    simp only [e1, pure_bind]
    have he' : EnvOk (args.map (·.2)) (required t v) env' := by
      intro j hj
      obtain ⟨a, ha, rfl⟩ := List.mem_map.mp hj
      obtain ⟨x, hx, hy⟩ := he a.1 (hsc.1 a ha)
      refine ⟨x, by rw [e2 a ha]; exact hx, fun y hm => hy y (hrq _ ?_)⟩
      simp only [required, List.mem_flatMap, List.mem_map, List.mem_filter]
      exact ⟨a, ha, (a.2, y), ⟨hm, by simp⟩, rfl⟩
    have := decA_reads T t _ _ (required t v) env' v ho.2.2 hsc.2 h (fun q hq => hq) he' (fun _ h => h)
      (fun t => by have := hT t; simpa only [ATight] using this)
    exact DecP.mapAnd (c := fun x : Val × DetEnv => validA t x.1) (h := fun x : Val × DetEnv => (x.1, env)) this
      (fun a ha => ⟨by rw [ha.1]; exact aValid_valid t _ v h, ha.1, fun _ _ => rfl, by intro k hk; simp at hk⟩)
  | .align a t, av, ctx, rq, env, v, ho, hsc, h, hrq, he, hca, hT => by
    simp only [AValid] at h
    simp only [AOk] at ho
    simp only [Scoped] at hsc
    simp only [required] at hrq
    simp only [ATight] at hT
    refine DecP.congr (w := followedBy (padTo a.size) (acode t rq v)) ?_ (fun p => by simp only [acode])
    simp only [decA, provides]
    exact DecP.align a (fun t => (hT t).1) (decA_reads T t av ctx rq env v ho hsc h hrq he hca (fun t => (hT t).2))
theorem decAFields_reads (T : Prop) : ∀ (fs : AFields) (av ctx : List Nat) (rq : List (Nat × Int)) (env : DetEnv) (vs : List (Bool × Val)), AOkFields fs →
    ScopedFields av ctx fs → AValidFields fs rq vs →
    (∀ q ∈ requiredFields fs vs, q ∈ rq) → EnvOk ctx rq env → ctx ⊆ av → (T → ATightFields fs) →
    DecP T (decAFields fs (presACode fs vs) env) (DecPost vs av (providesFields fs) rq env) (acodeFields fs rq vs)
  | .nil, av, ctx, rq, env, [], ho, hsc, h, hrq, he, hca, hT => by
    refine DecP.congr (w := fun _ => []) ?_ (fun p => by simp only [acodeFields])
    simp only [decAFields, providesFields]
    exact DecP.pure DecPost.same
  | .nil, av, ctx, rq, env, _ :: _, ho, hsc, h, hrq, he, hca, hT => by simp [AValidFields] at h
  | .asn1 o t rest, av, ctx, rq, env, [], ho, hsc, h, hrq, he, hca, hT => by cases o <;> simp [AValidFields] at h
  | .asn1 o t rest, av, ctx, rq, env, (e, v) :: vs, ho, hsc, h, hrq, he, hca, hT => by
    simp only [AOkFields] at ho
    simp only [ScopedFields] at hsc
    simp only [requiredFields] at hrq
    simp only [ATightFields] at hT
    obtain ⟨hsc1, hsc2, hsc3⟩ := hsc
    have hrest : AValidFields rest rq vs := by
      cases o with
      | optional p d => cases d <;> (simp only [AValidFields] at h; exact h.2)
      | _ => simp only [AValidFields] at h; exact h.2
    have hval : (e = true → AValid t rq v) ∧ (o.always = true → e = true) := by
      cases o with
      | optional p d =>
        refine ⟨fun he' => ?_, fun ha => by simp [AOpt.always] at ha⟩
        cases d <;> simp only [AValidFields] at h <;> rcases h.1 with h' | h' <;> first | exact h'.2 | (rw [he'] at h'; simp at h')
      | mandatory => simp only [AValidFields] at h; exact ⟨fun _ => h.1.2, fun _ => h.1.1⟩
      | present => simp only [AValidFields] at h; exact ⟨fun _ => h.1.2, fun _ => h.1.1⟩
      | absent =>
        simp only [AValidFields] at h
        exact ⟨fun he' => absurd he' (by rw [h.1.1]; simp), fun ha => by simp [AOpt.always] at ha⟩
    -- the flag
    have flag : presFlag o (presACode (.asn1 o t rest) ((e, v) :: vs)) env = pure (e, presACode rest vs) := by
      unfold presFlag
      cases o with
      | optional p d =>
        cases p with
        | bit => simp only [presACode]
        | whenBool k =>
          have := he.get (hsc1 k (by simp [AOpt.uses])) (hrq (k, if e then 1 else 0) (by simp [reqPresence]))
          simp only [this, presACode, pure_bind]
          cases e <;> rfl
      | mandatory => simp only [presACode, hval.2 rfl]
      | present => simp only [presACode, hval.2 rfl]
      | absent =>
        simp only [AValidFields] at h
        simp only [presACode, h.1.1]
    -- the component
    have comp : DecP T (if e then decA t env else pure (true, (absentVal o, env))) (DecPost v av (if o.always then provides t else []) rq env) (fun p => if e then acode t rq v p else []) := by
      by_cases he' : e = true
      · simp only [he', if_true]
        refine (decA_reads T t av ctx rq env v ho.1 hsc2 (hval.1 he') (fun q hq => hrq q (by simp [he', hq])) he hca (fun t => (hT t).1)).post ?_
        intro a ha
        refine ⟨ha.1, ha.2.1, ?_⟩
        split
        · exact ha.2.2
        · intro k hk; simp at hk
      · have hal : o.always = false := by
          cases hx : o.always
          · rfl
          · exact absurd (hval.2 hx) he'
        have hef : e = false := by simpa using he'
        simp only [hef, Bool.false_eq_true, if_false, hal]
        have hv : v = absentVal o := by
          cases o with
          | optional p d =>
            cases d with
            | none =>
              simp only [AValidFields, hef] at h
              simpa [absentVal] using h.1
            | some d =>
              simp only [AValidFields, hef] at h
              simpa [absentVal] using h.1
          | mandatory => simp [AOpt.always] at hal
          | present => simp [AOpt.always] at hal
          | absent => simp only [AValidFields] at h; exact h.1.2
        rw [← hv]; exact DecP.pure DecPost.same
    refine DecP.congr (w := followedBy (fun p => if e then acode t rq v p else []) (acodeFields rest rq vs)) ?_ (fun p => by simp only [acodeFields])
    simp only [decAFields, providesFields, flag, pure_bind]
    refine DecP.bind (g := fun p : Val × DetEnv => do
        let q ← decAFields rest (presACode rest vs) p.2
        pure (q.1, ((e, p.1) :: q.2.1, q.2.2))) (z := fun p => ([], p.2.2)) comp ?_
    intro p hp
    have he1 : EnvOk ((if o.always then provides t else []) ++ ctx) rq p.2 := by
      intro k hk
      rcases List.mem_append.mp hk with hk | hk
      · exact hp.2.2 k hk
      · rw [hp.2.1 k (hca hk)]; exact he k hk
    refine DecP.map (h := fun q : List (Bool × Val) × DetEnv => ((e, p.1) :: q.1, q.2))
      (decAFields_reads T rest _ _ rq p.2 vs ho.2 hsc3 hrest (fun q hq => hrq q (by simp [hq])) he1
        (fun k hk => by
          rcases List.mem_append.mp hk with hk | hk
          · exact List.mem_append_left _ hk
          · exact List.mem_append_right _ (hca hk)) (fun t => (hT t).2)) ?_
    intro a ha
    refine ⟨by rw [ha.1, hp.1], fun k hk => (ha.2.1 k (List.mem_append_right _ hk)).trans (hp.2.1 k hk), ?_⟩
    intro k hk
    rcases List.mem_append.mp hk with hk | hk
    · rw [ha.2.1 k (List.mem_append_left _ hk)]; exact hp.2.2 k hk
    · exact ha.2.2 k hk
  | .acn k a l rest, av, ctx, rq, env, vs, ho, hsc, h, hrq, he, hca, hT => by
    simp only [AValidFields] at h
    simp only [AOkFields] at ho
    simp only [ScopedFields] at hsc
    simp only [requiredFields] at hrq
    simp only [ATightFields] at hT
    obtain ⟨⟨x, hd, hf⟩, hr⟩ := h
    refine DecP.congr (w := followedBy (padOpt a) (followedBy (fun _ => leafCode l x) (acodeFields rest rq vs))) ?_
      (fun p => by simp only [acodeFields, demanded_eq hd, ← followedBy_assoc])
    simp only [decAFields, providesFields, presACode]
    refine DecP.alignOpt a (fun t => (hT t).1) ?_
    have d := decLeaf_reads hf
    refine DecP.bind (g := fun y : Int => decAFields rest (presACode rest vs) (env.set k y)) (z := fun _ => ([], env))
      (DecP.of' (Q := fun y => y = x) d.1 (fun _ => d.2) rfl) ?_
    rintro y rfl
    have hk : (env.set k y) k = some y := by simp [DetEnv.set]
    have ho' : ∀ j ∈ av, (env.set k y) j = env j := by
      intro j hj
      have : j ≠ k := fun e => hsc.1 (e ▸ hj)
      simp only [DetEnv.set, if_neg this]
    refine (decAFields_reads T rest (k :: av) (k :: ctx) rq (env.set k y) vs ho hsc.2 hr hrq ?_ ?_ (fun t => (hT t).2)).post ?_
    · intro j hj
      rcases List.mem_cons.mp hj with rfl | hj
      · exact ⟨y, hk, fun z hz => (hd.2 z hz).symm⟩
      · rw [ho' j (hca hj)]; exact he j hj
    · intro j hj
      rcases List.mem_cons.mp hj with rfl | hj
      · simp
      · exact List.mem_cons_of_mem _ (hca hj)
    · intro b hb
      refine ⟨hb.1, fun j hj => (hb.2.1 j (List.mem_cons_of_mem _ hj)).trans (ho' j hj), ?_⟩
      intro j hj
      rcases List.mem_cons.mp hj with rfl | hj
      · exact ⟨y, by rw [hb.2.1 j (by simp)]; exact hk, fun z hz => (hd.2 z hz).symm⟩
      · exact hb.2.2 j hj
  | .acnNull pat n rest, av, ctx, rq, env, vs, ho, hsc, h, hrq, he, hca, hT => by
    simp only [AValidFields] at h
    simp only [AOkFields] at ho
    simp only [ScopedFields] at hsc
    simp only [requiredFields] at hrq
    simp only [ATightFields] at hT
    refine DecP.congr (w := followedBy (fun _ => (bytesBits pat).take n) (acodeFields rest rq vs)) ?_ (fun p => by simp only [acodeFields])
    simp only [decAFields, providesFields, presACode]
    have d := readPattern ho.1
    have b := DecP.mapAnd (T := T) (c := fun b => b) (h := fun _ => ()) (Q' := fun _ => True)
      (DecP.of' (Q := fun b => b = true) d.1 (fun _ => d.2) rfl) (fun a ha => ⟨ha, trivial⟩)
    have := DecP.bind (g := fun _ => decAFields rest (presACode rest vs) env) (z := fun _ => ([], env)) b
      (fun _ _ => decAFields_reads T rest av ctx rq env vs ho.2 hsc h hrq he hca hT)
    simpa only [bind_assoc, pure_bind] using this
theorem decAAlt_reads (T : Prop) : ∀ (alts : AAlts) (i : Nat) (av ctx : List Nat) (rq : List (Nat × Int)) (env : DetEnv) (v : Val), AOkAlts alts →
    ScopedAlts av ctx alts → AValidAlt alts i rq v → (∀ q ∈ requiredAlt alts i v, q ∈ rq) → EnvOk ctx rq env → ctx ⊆ av → (T → ATightAlts alts) →
    DecP T (decAAlt alts i env) (DecPost v av [] rq env) (acodeAlt alts i rq v)
  | .nil, _, _, _, _, _, _, _, _, h, _, _, _, _ => by simp [AValidAlt] at h
  | .cons c t rest, 0, av, ctx, rq, env, v, ho, hsc, h, hrq, he, hca, hT => by
    simp only [AValidAlt] at h
    simp only [AOkAlts] at ho
    simp only [ScopedAlts] at hsc
    simp only [requiredAlt] at hrq
    simp only [ATightAlts] at hT
    refine DecP.congr (w := acode t rq v) ?_ (fun p => by simp only [acodeAlt])
    simp only [decAAlt]
    exact (decA_reads T t av ctx rq env v ho.1 hsc.1 h hrq he hca (fun t => (hT t).1)).post
      (fun a ha => ⟨ha.1, ha.2.1, by intro k hk; simp at hk⟩)
  | .cons c t rest, i + 1, av, ctx, rq, env, v, ho, hsc, h, hrq, he, hca, hT => by
    simp only [AValidAlt] at h
    simp only [AOkAlts] at ho
    simp only [ScopedAlts] at hsc
    simp only [requiredAlt] at hrq
    simp only [ATightAlts] at hT
    refine DecP.congr (w := acodeAlt rest i rq v) ?_ (fun p => by simp only [acodeAlt])
    simp only [decAAlt]
    exact decAAlt_reads T rest i av ctx rq env v ho.2 hsc.2 h hrq he hca (fun t => (hT t).2)
theorem decAAltDet_reads (T : Prop) : ∀ (alts : AAlts) (i j : Nat) (av ctx : List Nat) (rq : List (Nat × Int)) (env : DetEnv) (v : Val), AOkAlts alts →
    ScopedAlts av ctx alts → AValidAlt alts i rq v → (∀ q ∈ requiredAlt alts i v, q ∈ rq) → EnvOk ctx rq env → ctx ⊆ av → (T → ATightAlts alts) →
    (∀ c ∈ alts.conds, ∀ q ∈ c, q.1 ∈ ctx) → alts.conds.Pairwise (fun c d => ∃ k x y, (k, x) ∈ c ∧ (k, y) ∈ d ∧ x ≠ y) →
    (∀ q ∈ alts.conds.getD i [], q ∈ rq) →
    DecP T (decAAltDet alts j env) (DecPost (.choice (j + i) v) av [] rq env) (acodeAlt alts i rq v)
  | .nil, _, _, _, _, _, _, _, _, _, h, _, _, _, _, _, _, _ => by simp [AValidAlt] at h
  | .cons c t rest, 0, j, av, ctx, rq, env, v, ho, hsc, h, hrq, he, hca, hT, hk, hp, hq => by
    simp only [AValidAlt] at h
    simp only [AOkAlts] at ho
    simp only [ScopedAlts] at hsc
    simp only [requiredAlt] at hrq
    simp only [ATightAlts] at hT
    simp only [AAlts.conds, List.getD_cons_zero] at hq hk hp
    refine DecP.congr (w := acode t rq v) ?_ (fun p => by simp only [acodeAlt])
    simp only [decAAltDet]
    rw [condsHold_true (by
      intro q hq'
      obtain ⟨x, h1, h2⟩ := he q.1 (hk c (by simp) q hq')
      rw [h1, h2 q.2 (hq q hq')]), pure_bind, if_pos rfl]
    exact DecP.map (h := fun x : Val × DetEnv => (Val.choice j x.1, x.2))
      (decA_reads T t av ctx rq env v ho.1 hsc.1 h hrq he hca (fun t => (hT t).1))
      (fun a ha => ⟨by rw [ha.1]; rfl, ha.2.1, by intro k hk; simp at hk⟩)
  | .cons c t rest, i + 1, j, av, ctx, rq, env, v, ho, hsc, h, hrq, he, hca, hT, hk, hp, hq => by
    simp only [AValidAlt] at h
    simp only [AOkAlts] at ho
    simp only [ScopedAlts] at hsc
    simp only [requiredAlt] at hrq
    simp only [ATightAlts] at hT
    simp only [AAlts.conds, List.getD_cons_succ] at hq hk hp
    rw [List.pairwise_cons] at hp
    have hi := aValidAlt_lt h
    rw [← conds_length] at hi
    refine DecP.congr (w := acodeAlt rest i rq v) ?_ (fun p => by simp only [acodeAlt])
    simp only [decAAltDet]
    have hmem : rest.conds.getD i [] ∈ rest.conds := by
      rw [List.getD_eq_getElem?_getD, List.getElem?_eq_getElem hi, Option.getD_some]
      exact List.getElem_mem hi
    rw [condsHold_false (fun q hq' => (he q.1 (hk c (by simp) q hq')).imp fun _ h => h.1) (by
      obtain ⟨k, x, y, h1, h2, h3⟩ := hp.1 _ hmem
      refine ⟨(k, x), h1, ?_⟩
      obtain ⟨z, h4, h5⟩ := he k (hk c (by simp) (k, x) h1)
      simp only [h4, h5 y (hq _ h2), ne_eq, Option.some.injEq]
      exact fun e => h3 e.symm), pure_bind, if_neg (by simp)]
    have := decAAltDet_reads T rest i (j + 1) av ctx rq env v ho.2 hsc.2 h hrq he hca (fun t => (hT t).2)
      (fun c' hc' => hk c' (by simp [hc'])) hp.2 hq
    rwa [show j + 1 + i = j + (i + 1) by omega] at this
end

end Asn1
