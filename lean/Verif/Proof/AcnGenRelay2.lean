import Verif.Proof.AcnGenRelay
import Verif.Proof.AcnGenValid
/-! What generated ACN decoders accept can be encoded again. -/
namespace Asn1

theorem SafeQ.and {α : Type} {f : M (Bool × α)} {Q R : α → Prop} (h1 : SafeQ f Q) (h2 : SafeQ f R) : SafeQ f (fun a => Q a ∧ R a) := by
  intro s a b c
  obtain ⟨r, s', k1, k2, k3, k4⟩ := h1 s a b c
  obtain ⟨r2, s2, m1, m2, m3, m4⟩ := h2 s a b c
  rw [k1] at m1
  simp only [Res.ok.injEq, Prod.mk.injEq] at m1
  obtain ⟨rfl, rfl⟩ := m1
  exact ⟨r, s', k1, k2, k3, fun e => ⟨⟨(k4 e).1, (m4 e).1⟩, (k4 e).2⟩⟩

/-! ### Lengths -/

theorem takeWhile_length_le {d : List Byte} {n m : Nat} (h : d.drop n = List.replicate m 0#8) : (d.takeWhile (· ≠ 0#8)).length ≤ n := by
  rcases Nat.lt_or_ge n d.length with hn | hn
  · have h0 : d[n]? = some 0#8 := by
      have : (d.drop n)[0]? = d[n]? := by simp
      rw [← this, h, List.getElem?_replicate, if_pos]
      have := congrArg List.length h
      simp at this
      omega
    apply Decidable.byContradiction
    intro hc
    have hmem : d[n]? = (d.takeWhile (· ≠ 0#8))[n]? := by
      have hp : (d.takeWhile (· ≠ 0#8)) <+: d := List.takeWhile_prefix _
      obtain ⟨t, ht⟩ := hp
      conv => lhs; rw [← ht]
      rw [List.getElem?_append_left (by omega)]
    rw [h0] at hmem
    exact takeWhile_nz d 0#8 (List.mem_of_getElem? hmem.symm) rfl
  · exact Nat.le_trans (List.takeWhile_prefix _).length_le hn

theorem decStrExt_length (hi : Nat) (x : Int) : Post (decStrExt hi x) (fun l => (l.length : Int) ≤ max x 0) := by
  unfold decStrExt acnDecStrAsciiExternal acnDecStrAsciiPrivate
  rw [dstZero_ok (by simp), pure_bind]
  have hc := clip_le x hi
  have hcx : clip x hi ≤ x := by unfold clip; split <;> omega
  refine ((decAsciiLoop_safe (clip x hi).toNat 0 _ (by simp; omega)).2).bind' (fun d hd => Post.pure (fun _ => ?_)) (fun _ => Post.false)
  have h2 := hd.2
  rw [show List.drop (hi + 1) (List.replicate (hi + 1) 0#8) = ([] : List Byte) by simp, List.append_nil, List.drop_replicate, Nat.zero_add] at h2
  have := takeWhile_length_le h2
  have h3 : ((d.takeWhile (· ≠ 0#8)).length : Int) ≤ max x 0 := by omega
  exact h3

theorem decStrIdx_length {alphabet : List Byte} (hi : Nat) (x : Int) (h1 : 1 ≤ alphabet.length) (h31 : alphabet.length < 2 ^ 31) :
    Post (decStrIdx alphabet hi x) (fun l => (l.length : Int) ≤ max x 0) := by
  have hc := clip_le x hi
  have hcx : clip x hi ≤ x := by unfold clip; split <;> omega
  have main : ∀ set : List Byte, 1 ≤ set.length → set.length < 2 ^ 31 →
      Post (acnDecStrIndexPrivate hi (clip x hi) set set.length (List.replicate (hi + 1) 0#8))
        (fun d => ((d.takeWhile (· ≠ 0#8)).length : Int) ≤ max x 0) := fun set k1 k2 => by
    unfold acnDecStrIndexPrivate
    rw [dstZero_ok (by simp), pure_bind]
    refine ((decIndexLoop_safe set k2 k1 (clip x hi).toNat 0 _ (by simp; omega)).2).mono (fun d hd => ?_)
    have h2 := hd.2
    rw [show List.drop (hi + 1) (List.replicate (hi + 1) 0#8) = ([] : List Byte) by simp, List.append_nil, List.drop_replicate, Nat.zero_add] at h2
    have := takeWhile_length_le h2
    omega
  unfold decStrIdx
  have hm : Post (if alphabet.length = 128 then acnDecIa5External hi x (List.replicate (hi + 1) 0#8)
      else acnDecStrIndexExternal hi alphabet alphabet.length x (List.replicate (hi + 1) 0#8))
      (fun d => ((d.takeWhile (· ≠ 0#8)).length : Int) ≤ max x 0) := by
    refine Post.ite (fun _ => ?_) (fun _ => main alphabet h1 h31)
    have := main ia5Set (by rw [ia5_length]; omega) (by rw [ia5_length]; omega)
    rwa [ia5_length] at this
  exact hm.bind' (fun d hd => Post.pure (fun _ => hd)) (fun _ => Post.false)

theorem fixed_eq {lo hi : Nat} {x : Int} (e : lo = hi) (h0 : 0 < hi)
    (h : ((decide (lo = 0) || decide ((lo : Int) ≤ x)) && decide (x ≤ (hi : Int))) = true) : (hi : Int) = x := by
  simp only [Bool.and_eq_true, Bool.or_eq_true, decide_eq_true_eq] at h
  omega

theorem decOctetsExt_length {lo hi : Nat} {dmax : Option Int} {x : Int} (h31 : hi < 2 ^ 31) (h0 : 0 < hi)
    (hg : lo = hi ∨ 0 ≤ x ∧ (x ≤ hi ∨ ∀ m, dmax = some m → (hi : Int) < m)) : Post (decOctetsExt lo hi dmax x) (fun l => (l.length : Int) = x) := by
  unfold decOctetsExt
  refine Post.ite (fun e => Post.ite (fun h => ?_) (fun _ => Post.false)) (fun hne => Post.ite (fun he => ?_) (fun _ => Post.false))
  · exact (decodeOctetStringNoLength_post hi).mono (fun l hl => by rw [hl]; exact fixed_eq e h0 h)
  · obtain ⟨n, rfl, hn⟩ := extOk_le (hg.resolve_left hne) he
    rw [extCount_nat (by omega), pure_bind]
    refine (decodeOctetStringNoLength_post n).bind' (fun l hl => ?_) (fun l => ?_)
    · exact Post.ite (fun _ => mUb_post) (fun _ => Post.pure (fun _ => by rw [hl]))
    · exact Post.ite (fun _ => mUb_post) (fun _ => Post.false)

theorem decBitsExt_length {lo hi : Nat} {dmax : Option Int} {x : Int} (h31 : hi < 2 ^ 31) (h0 : 0 < hi)
    (hg : lo = hi ∨ 0 ≤ x ∧ (x ≤ hi ∨ ∀ m, dmax = some m → (hi : Int) < m)) : Post (decBitsExt lo hi dmax x) (fun r => (r.1 : Int) = x) := by
  unfold decBitsExt
  refine Post.ite (fun e => Post.ite (fun h => ?_) (fun _ => Post.false)) (fun hne => Post.ite (fun he => ?_) (fun _ => Post.false))
  · exact Post.bind (fun p => Post.pure (fun _ => fixed_eq e h0 h))
  · obtain ⟨n, rfl, hn⟩ := extOk_le (hg.resolve_left hne) he
    rw [extCount_nat (by omega), pure_bind, if_neg (by omega)]
    exact Post.bind (fun p => Post.pure (fun _ => rfl))

theorem decCount_count {lo hi j : Nat} {env : DetEnv} {x : Int} (hx : envGet env j = pure x) (h31 : hi < 2 ^ 31) (h0 : 0 < hi) (hg : lo = hi ∨ 0 ≤ x) :
    Post (decCount lo hi (some j) env) (fun n => (n : Int) = x) := by
  simp only [decCount, hx, pure_bind]
  refine Post.ite (fun h => Post.ite (fun e => Post.pure (fun _ => fixed_eq e h0 h)) (fun hne => ?_)) (fun _ => Post.false)
  rw [Bool.and_eq_true] at h
  have := of_decide_eq_true h.2
  obtain ⟨n, rfl⟩ := Int.eq_ofNat_of_zero_le (hg.resolve_left hne)
  rw [extCount_nat (by omega), pure_bind]
  exact Post.pure (fun _ => rfl)

theorem leafValid_of {l : ALeaf} {x : Int} (hc : LeafCovers l) (hm : DetMay l x) (hv : validLeaf l (leafVal l x) = true) : LeafValid l (leafVal l x) := by
  have h := hc x hm
  cases l with
  | int w r enc mf =>
    simp only [leafVal, validLeaf] at hv
    exact ⟨rng_contains hv, h (rng_contains hv)⟩
  | bool e =>
    simp only [DetMay] at hm
    simp only [leafVal, LeafValid]
    rcases hm with rfl | rfl <;> exact h
  | enum items valid enc =>
    simp only [leafVal, validLeaf] at hv
    have hv : x ∈ valid := by simpa using hv
    exact ⟨hv, h hv⟩

/-! ### Determinants and requirements -/

/-- Variables other than these keep their values. -/
def Keeps (ks : List Nat) (e e' : DetEnv) : Prop := ∀ k, k ∉ ks → e' k = e k

theorem Keeps.refl (ks : List Nat) (e : DetEnv) : Keeps ks e e := fun _ _ => rfl
theorem Keeps.trans {ks : List Nat} {a b c : DetEnv} (h : Keeps ks a b) (h' : Keeps ks b c) : Keeps ks a c := fun k hk => (h' k hk).trans (h k hk)
theorem Keeps.mono {ks ks' : List Nat} {a b : DetEnv} (h : Keeps ks a b) (hs : ∀ k ∈ ks, k ∈ ks') : Keeps ks' a b :=
  fun k hk => h k (fun e => hk (hs k e))

/-- The requirements `rq` are about determinants of `ctx` and `ks` and say what these are; less, for the lengths of character strings. -/
def AgreeOn (ctx ks strs : List Nat) (rq : List (Nat × Int)) (env : DetEnv) : Prop :=
  ∀ k x, (k, x) ∈ rq → (k ∈ ctx ∨ k ∈ ks) ∧ ∃ y, env k = some y ∧ (x = y ∨ (k ∈ strs ∧ 0 ≤ x ∧ x ≤ max y 0))

theorem AgreeOn.nil {ctx ks strs : List Nat} {env : DetEnv} : AgreeOn ctx ks strs [] env := by intro k x h; simp at h

theorem AgreeOn.step {ctx ctx' ks ks' strs strs' : List Nat} {rq : List (Nat × Int)} {e e' : DetEnv} (h : AgreeOn ctx ks strs rq e)
    (hk : ∀ k, k ∈ ctx ∨ k ∈ ks → e' k = e k) (hc : ∀ k, k ∈ ctx ∨ k ∈ ks → k ∈ ctx' ∨ k ∈ ks') (hs : ∀ k ∈ strs, k ∈ strs') :
    AgreeOn ctx' ks' strs' rq e' := by
  intro k x hx
  obtain ⟨h1, y, h2, h3⟩ := h k x hx
  exact ⟨hc k h1, y, by rw [hk k h1]; exact h2, h3.imp id (fun a => ⟨hs k a.1, a.2⟩)⟩

theorem AgreeOn.append {ctx ks strs : List Nat} {a b : List (Nat × Int)} {e : DetEnv} (h : AgreeOn ctx ks strs a e) (h' : AgreeOn ctx ks strs b e) :
    AgreeOn ctx ks strs (a ++ b) e := by
  intro k x hx
  rcases List.mem_append.1 hx with hx | hx
  · exact h k x hx
  · exact h' k x hx

theorem AgreeOn.one {ctx ks strs : List Nat} {k : Nat} {x : Int} {e : DetEnv} (hk : k ∈ ctx) (he : e k = some x) : AgreeOn ctx ks strs [(k, x)] e := by
  intro j y hy
  simp only [List.mem_singleton, Prod.mk.injEq] at hy
  obtain ⟨rfl, rfl⟩ := hy
  exact ⟨.inl hk, y, he, .inl rfl⟩

theorem EnvIn.get' {ctx : List Nat} {P : Nat → Int → Prop} {env : DetEnv} (h : EnvIn ctx P env) {k : Nat} (hk : k ∈ ctx) :
    ∃ x, env k = some x ∧ envGet env k = pure x ∧ P k x := by
  obtain ⟨x, hx⟩ := h.has k hk
  exact ⟨x, hx, by simp only [envGet, hx], h.may k x hx⟩

mutual
theorem provides_dets : ∀ (t : ATy), ∀ k ∈ provides t, k ∈ (dets t).map (·.1)
  | .seq fs => by simp only [provides, dets]; exact providesFields_dets fs
  | .align _ t => by simp only [provides, dets]; exact provides_dets t
  | .prim _ => by simp [provides]
  | .leaf _ => by simp [provides]
  | .nullPat _ _ => by simp [provides]
  | .real64 _ _ => by simp [provides]
  | .real32 _ _ => by simp [provides]
  | .octets _ _ _ _ => by simp [provides]
  | .bits _ _ _ _ => by simp [provides]
  | .strAscii _ _ _ => by simp [provides]
  | .strNull _ _ _ _ => by simp [provides]
  | .strExt _ _ _ _ => by simp [provides]
  | .strIdx _ _ _ _ => by simp [provides]
  | .seqOf _ _ _ _ => by simp [provides]
  | .choice _ _ => by simp [provides]
  | .ref _ _ => by simp [provides]
theorem providesFields_dets : ∀ (fs : AFields), ∀ k ∈ providesFields fs, k ∈ (detsFields fs).map (·.1)
  | .nil => by simp [providesFields]
  | .asn1 o t rest => by
    intro k hk
    simp only [providesFields, List.mem_append] at hk
    simp only [detsFields, List.map_append, List.mem_append]
    rcases hk with hk | hk
    · split at hk
      · exact .inl (provides_dets t k hk)
      · simp at hk
    · exact .inr (providesFields_dets rest k hk)
  | .acn j _ _ rest => by
    intro k hk
    simp only [providesFields, List.mem_cons] at hk
    simp only [detsFields, List.map_cons, List.mem_cons]
    exact hk.imp id (providesFields_dets rest k)
  | .acnNull _ _ rest => by simp only [providesFields, detsFields]; exact providesFields_dets rest
end

theorem condsHold_get {ctx : List Nat} {P : Nat → Int → Prop} {env : DetEnv} (h : EnvIn ctx P env) :
    ∀ {c : List (Nat × Int)}, (∀ q ∈ c, q.1 ∈ ctx) → ∃ b, condsHold env c = pure b ∧ (b = true → ∀ q ∈ c, env q.1 = some q.2)
  | [], _ => ⟨true, rfl, fun _ => by simp⟩
  | (k, x) :: c, hc => by
    obtain ⟨y, hy0, hy, _⟩ := h.get' (hc _ List.mem_cons_self)
    simp only [condsHold, hy, pure_bind]
    split
    · rename_i e
      obtain ⟨b, h1, h2⟩ := condsHold_get h (c := c) (fun q hq => hc q (List.mem_cons_of_mem _ hq))
      refine ⟨b, h1, fun hb q hq => ?_⟩
      rcases List.mem_cons.1 hq with rfl | hq
      · rw [hy0, e]
      · exact h2 hb q hq
    · exact ⟨false, rfl, fun h => by simp at h⟩

theorem passArgs_get {ctx : List Nat} {P : Nat → Int → Prop} {env : DetEnv} (h : EnvIn ctx P env) :
    ∀ {args : List (Nat × Nat)}, (∀ a ∈ args, a.1 ∈ ctx) → (args.map (·.2)).Nodup →
      ∃ env', passArgs env args = pure env' ∧ ∀ a ∈ args, env' a.2 = env a.1
  | [], _, _ => ⟨DetEnv.empty, rfl, by simp⟩
  | (k, j) :: args, hc, hn => by
    obtain ⟨y, hy0, hy, _⟩ := h.get' (hc _ List.mem_cons_self)
    rw [List.map_cons, List.nodup_cons] at hn
    obtain ⟨env', h1, h2⟩ := passArgs_get h (args := args) (fun a ha => hc a (List.mem_cons_of_mem _ ha)) hn.2
    refine ⟨env'.set j y, by simp only [passArgs, hy, h1, pure_bind], fun a ha => ?_⟩
    rcases List.mem_cons.1 ha with rfl | ha
    · simp [DetEnv.set, hy0]
    · have hne : a.2 ≠ j := fun e => hn.1 (by rw [← e]; exact List.mem_map_of_mem (f := (·.2)) ha)
      simp only [DetEnv.set, if_neg hne]
      exact h2 a ha

theorem presFlag_total2 {ctx : List Nat} {P : Nat → Int → Prop} {env : DetEnv} (h : EnvIn ctx P env) {o : AOpt} {bs : List Bool} {n : Nat}
    (hu : ∀ k ∈ o.uses, k ∈ ctx) (hb : bs.length = o.flags + n) (h01 : ∀ k ∈ o.uses, ∀ x, P k x → x = 0 ∨ x = 1) :
    ∃ e bs', presFlag o bs env = pure (e, bs') ∧ bs'.length = n ∧ o.flagOk e ∧ AgreeOn ctx [] [] (reqPresence o e) env := by
  cases o with
  | mandatory => exact ⟨true, bs, rfl, by simpa [AOpt.flags] using hb, rfl, AgreeOn.nil⟩
  | absent => exact ⟨false, bs, rfl, by simpa [AOpt.flags] using hb, rfl, AgreeOn.nil⟩
  | present => exact ⟨true, bs, rfl, by simpa [AOpt.flags] using hb, rfl, AgreeOn.nil⟩
  | optional p d =>
    cases p with
    | bit =>
      cases bs with
      | nil => simp [AOpt.flags] at hb; omega
      | cons b bs => exact ⟨b, bs, rfl, by simp [AOpt.flags] at hb; omega, trivial, AgreeOn.nil⟩
    | whenBool k =>
      obtain ⟨x, hx0, hx, hp⟩ := h.get' (hu k (by simp [AOpt.uses]))
      refine ⟨decide (x ≠ 0), bs, by simp only [presFlag, hx, pure_bind], by simpa [AOpt.flags] using hb, trivial, ?_⟩
      simp only [reqPresence]
      refine AgreeOn.one (hu k (by simp [AOpt.uses])) ?_
      rw [hx0]
      rcases h01 k (by simp [AOpt.uses]) x hp with rfl | rfl <;> simp

theorem decItemsA_relay {P : Nat → Int → Prop} {ks : List Nat} {R : Val → Prop} {item : DetEnv → M (Bool × (Val × DetEnv))}
    (h : ∀ env, EnvIn [] P env → SafeQ (item env) (fun r => EnvIn [] P r.2 ∧ Keeps ks env r.2 ∧ R r.1)) :
    ∀ (n : Nat) (env : DetEnv) (acc : List Val), EnvIn [] P env → (∀ v ∈ acc, R v) →
      SafeQ (decItemsA item n env acc) (fun r => Keeps ks env r.2 ∧ (∀ v ∈ r.1, R v) ∧ r.1.length = acc.length + n)
  | 0, env, acc, he, ha => SafeQ.pure (fun _ => ⟨Keeps.refl _ _, ha, rfl⟩)
  | n + 1, env, acc, he, ha => by
    simp only [decItemsA]
    refine (h env he).bind (fun r hr => ?_) (fun r => ⟨(acc, r.2), by rw [if_neg (by simp)]⟩)
    rw [if_pos rfl]
    refine (decItemsA_relay h n r.2 (acc ++ [r.1]) hr.1 (fun v hv => ?_)).mono (fun q hq => ⟨hr.2.1.trans hq.1, hq.2.1, ?_⟩)
    · rcases List.mem_append.1 hv with hv | hv
      · exact ha v hv
      · rw [List.mem_singleton.1 hv]; exact hr.2.2
    · rw [hq.2.2, List.length_append, List.length_singleton]; omega

theorem nodup_keys_unique {α : Type} {k : Nat} {a b : α} : ∀ {l : List (Nat × α)}, (l.map (·.1)).Nodup → (k, a) ∈ l → (k, b) ∈ l → a = b
  | [], _, h, _ => by simp at h
  | p :: l, hn, ha, hb => by
    rw [List.map_cons, List.nodup_cons] at hn
    rcases List.mem_cons.1 ha with ha' | ha' <;> rcases List.mem_cons.1 hb with hb' | hb'
    · rw [← hb'] at ha'; cases ha'; rfl
    · rw [← ha'] at hn; exact absurd (List.mem_map_of_mem (f := (·.1)) hb') hn.1
    · rw [← hb'] at hn; exact absurd (List.mem_map_of_mem (f := (·.1)) ha') hn.1
    · exact nodup_keys_unique hn.2 ha' hb'

/-- What the decoder of a type leaves behind. -/
def RelayQ (ctx : List Nat) (t : ATy) (env : DetEnv) (r : Val × DetEnv) : Prop :=
  Keeps ((dets t).map (·.1)) env r.2 ∧
    (validA t r.1 = true → AHas t r.1 ∧ Inner t r.1 ∧ AgreeOn ctx ((dets t).map (·.1)) (strKeys t) (required t r.1) r.2)

theorem AgreeOn.str {ctx ks strs : List Nat} {k : Nat} {x y : Int} {e : DetEnv} (hk : k ∈ ctx) (he : e k = some y) (hs : k ∈ strs) (h0 : 0 ≤ x) (hx : x ≤ max y 0) :
    AgreeOn ctx ks strs [(k, x)] e := by
  intro j z hz
  simp only [List.mem_singleton, Prod.mk.injEq] at hz
  obtain ⟨rfl, rfl⟩ := hz
  exact ⟨.inl hk, y, he, .inr ⟨hs, h0, hx⟩⟩

mutual
theorem decA_relay : ∀ (t : ATy) (av ctx : List Nat) (P : Nat → Int → Prop) (env : DetEnv), AOk t → Scoped av ctx t → AGuarded P t → ARelays P t →
    ((dets t).map (·.1)).Nodup → (∀ k ∈ ctx, k ∉ (dets t).map (·.1)) →
    (∀ k l x, (k, l) ∈ dets t → DetMay l x → P k x) → (∀ k l x, (k, l) ∈ dets t → P k x → DetMay l x) → EnvIn ctx P env →
    SafeQ (decA t env) (RelayQ ctx t env)
  | .prim t, av, ctx, P, env, hok, hsc, hg, hr, hn, hdj, hd, hi, he => by
    simp only [AOk, AGuarded, ARelays] at hok hg hr
    simp only [decA]
    refine (SafeQ.of (decTy_safe t hok.1 hg) (decTy_valid t hok.1 hg hr)).map (fun p hp => ⟨hp, fun hq => ⟨Keeps.refl _ _, fun hv => ?_⟩⟩)
    simp only [validA] at hv
    simp only [AHas, Inner, required]
    exact ⟨hq hv, trivial, AgreeOn.nil⟩
  | .leaf l, av, ctx, P, env, hok, hsc, hg, hr, hn, hdj, hd, hi, he => by
    simp only [AGuarded, ARelays] at hg hr
    simp only [decA]
    refine (decLeaf_safeQ hg).map (fun p hp => ⟨hp, fun hq => ⟨Keeps.refl _ _, fun hv => ?_⟩⟩)
    simp only [validA] at hv
    simp only [AHas, Inner, required]
    exact ⟨leafValid_of hr hq hv, trivial, AgreeOn.nil⟩
  | .nullPat pat n, av, ctx, P, env, hok, hsc, hg, hr, hn, hdj, hd, hi, he => by
    simp only [AOk] at hok
    simp only [decA]
    refine (SafeQ.ofSafe (readBitPattern_safe hok)).map (fun p hp => ⟨by simp only [Bool.and_eq_true] at hp; exact hp.1, fun _ => ⟨Keeps.refl _ _, fun hv => ?_⟩⟩)
    simp only [AHas, Inner, required]
    exact ⟨trivial, trivial, AgreeOn.nil⟩
  | .real64 little _, av, ctx, P, env, hok, hsc, hg, hr, hn, hdj, hd, hi, he => by
    simp only [decA]
    refine (SafeQ.ofSafe (Safe.ite (fun _ => acnDecRealLittle_safe 8) (fun _ => acnDecRealBig_safe 8))).map (fun p hp => ⟨hp, fun _ => ⟨Keeps.refl _ _, fun hv => ?_⟩⟩)
    simp only [validA] at hv
    simp only [AHas, Inner, required]
    exact ⟨hv, trivial, AgreeOn.nil⟩
  | .real32 little _, av, ctx, P, env, hok, hsc, hg, hr, hn, hdj, hd, hi, he => by
    simp only [AGuarded] at hg
    subst hg
    simp only [decA, Bool.false_eq_true, if_false]
    refine (SafeQ.ofSafe (acnDecRealBig_safe 4)).map (fun p hp => ⟨hp, fun _ => ⟨Keeps.refl _ _, fun hv => ?_⟩⟩)
    simp only [validA] at hv
    simp only [AHas, Inner, required]
    refine ⟨⟨hv, ?_⟩, trivial, AgreeOn.nil⟩
    rw [BitVec.toNat_setWidth]
    have := p.2.isLt
    omega
  | .octets lo hi' k dmax, av, ctx, P, env, hok, hsc, hg, hr, hn, hdj, hd, hi, he => by
    simp only [AOk, AGuarded, Scoped, ARelays] at hok hg hsc hr
    obtain ⟨x, hx0, hx, hp⟩ := he.get' hsc
    simp only [decA, hx, pure_bind]
    have hg' := hg.imp id (fun h => h x hp)
    refine (SafeQ.of (decOctetsExt_safe (lo := lo) hok.2 hg') (decOctetsExt_length hok.2 hr hg')).map (fun p hp => ⟨hp, fun hq => ⟨Keeps.refl _ _, fun hv => ?_⟩⟩)
    simp only [validA, decide_eq_true_eq] at hv
    simp only [AHas, Inner, required]
    exact ⟨hv, trivial, AgreeOn.one hsc (by rw [hq]; exact hx0)⟩
  | .bits lo hi' k dmax, av, ctx, P, env, hok, hsc, hg, hr, hn, hdj, hd, hi, he => by
    simp only [AOk, AGuarded, Scoped, ARelays] at hok hg hsc hr
    obtain ⟨x, hx0, hx, hp⟩ := he.get' hsc
    simp only [decA, hx, pure_bind]
    have hg' := hg.imp id (fun h => h x hp)
    refine (SafeQ.of (decBitsExt_safe (lo := lo) hok.2 hg') ((decBitsExt_length hok.2 hr hg').and (decBitsExt_packed lo hi' dmax x))).map
      (fun p hp => ⟨hp, fun hq => ⟨Keeps.refl _ _, fun hv => ?_⟩⟩)
    simp only [validA, decide_eq_true_eq] at hv
    simp only [AHas, Inner, required]
    exact ⟨⟨hv.1, hv.2, hq.2⟩, trivial, AgreeOn.one hsc (by rw [hq.1]; exact hx0)⟩
  | .strAscii _ lo hi', av, ctx, P, env, hok, hsc, hg, hr, hn, hdj, hd, hi, he => by
    simp only [AOk] at hok
    simp only [decA]
    refine (SafeQ.of (decStrAscii_safe hok.1 hok.2) (decStrAscii_nz lo hi')).map (fun p hp => ⟨hp, fun hq => ⟨Keeps.refl _ _, fun hv => ?_⟩⟩)
    simp only [validA] at hv
    simp only [AHas, Inner, required]
    exact ⟨strValid_of hq hv, trivial, AgreeOn.nil⟩
  | .strNull _ _ _ _, av, ctx, P, env, hok, hsc, hg, hr, hn, hdj, hd, hi, he => by
    simp only [AGuarded] at hg
  | .strExt _ lo hi' k, av, ctx, P, env, hok, hsc, hg, hr, hn, hdj, hd, hi, he => by
    simp only [Scoped] at hsc
    obtain ⟨x, hx0, hx, hp⟩ := he.get' hsc
    simp only [decA, hx, pure_bind]
    refine (SafeQ.of (decStrExt_safe hi' x) ((decStrExt_nz hi' x).and (decStrExt_length hi' x))).map (fun p hp => ⟨hp, fun hq => ⟨Keeps.refl _ _, fun hv => ?_⟩⟩)
    simp only [validA] at hv
    simp only [AHas, Inner, required]
    exact ⟨strValid_of hq.1 hv, trivial, AgreeOn.str hsc hx0 (by simp [strKeys]) (by omega) hq.2⟩
  | .strIdx alphabet lo hi' k, av, ctx, P, env, hok, hsc, hg, hr, hn, hdj, hd, hi, he => by
    simp only [AOk, Scoped] at hok hsc
    obtain ⟨x, hx0, hx, hp⟩ := he.get' hsc
    simp only [decA, hx, pure_bind]
    refine (SafeQ.of (decStrIdx_safe hi' x hok.2.2.1 hok.2.2.2.1) ((decStrIdx_nz alphabet hi' x).and (decStrIdx_length hi' x hok.2.2.1 hok.2.2.2.1))).map
      (fun p hp => ⟨hp, fun hq => ⟨Keeps.refl _ _, fun hv => ?_⟩⟩)
    simp only [validA] at hv
    simp only [AHas, Inner, required]
    exact ⟨strValid_of hq.1 hv, trivial, AgreeOn.str hsc hx0 (by simp [strKeys]) (by omega) hq.2⟩
  | .seq fs, av, ctx, P, env, hok, hsc, hg, hr, hn, hdj, hd, hi, he => by
    simp only [AOk, AGuarded, Scoped, ARelays] at hok hg hsc hr
    simp only [dets] at hn hdj hd hi
    simp only [decA]
    refine (decPresA_safeQ fs).bind (fun bs hb => ?_) (fun _ => ⟨_, by rw [if_neg (by simp)]⟩)
    rw [if_pos rfl]
    refine (decAFields_relay fs av ctx P bs env hok hsc hg hr hn hdj hd hi he hb).map (fun p hp => ⟨hp, fun hq => ⟨by simpa only [dets] using hq.1, fun hv => ?_⟩⟩)
    simp only [validA] at hv
    simp only [AHas, Inner, required, dets, strKeys]
    exact hq.2 hv
  | .seqOf lo hi' k t, av, ctx, P, env, hok, hsc, hg, hr, hn, hdj, hd, hi, he => by
    simp only [AOk, AGuarded, Scoped, ARelays] at hok hg hsc hr
    simp only [dets] at hn hdj hd hi
    simp only [decA]
    have hcnt : Post (decCount lo hi' k env) (fun n => ∀ j, k = some j → env j = some (n : Int)) := by
      cases k with
      | none => exact fun s a s' _ j hj => by simp at hj
      | some j =>
        obtain ⟨x, hx0, hx, hp⟩ := he.get' (hsc.1 j rfl)
        refine (decCount_count hx hok.2.1 (hr.1 (by simp)) ((hg.1 j rfl).imp id (fun h => h x hp))).mono (fun n hn i hi => ?_)
        cases hi
        rw [hn]; exact hx0
    refine (SafeQ.of (decCount_safe he hsc.1 hok.1 hok.2.1 hg.1) hcnt).bind (fun n hcn => ?_) (fun _ => ⟨_, by rw [if_neg (by simp)]⟩)
    rw [if_pos rfl]
    refine (decItemsA_relay (P := P) (ks := (dets t).map (·.1)) (R := fun v => validA t v = true → AHas t v ∧ AcnValid t v) (fun env' he' => ?_)
      n env [] he.nil (by simp)).map (fun p hp => ⟨hp, fun hq => ⟨by simpa only [dets] using hq.1, fun hv => ?_⟩⟩)
    · refine ((decA_safe t av [] P env' hok.2.2 hsc.2 hg.2 hd he').and
        (decA_relay t av [] P env' hok.2.2 hsc.2 hg.2 hr.2.2 hn (by simp) hd hi he')).mono (fun r hr' => ⟨hr'.1.1.nil, hr'.2.1, fun hv => ?_⟩)
      obtain ⟨h1, h2, h3⟩ := hr'.2.2 hv
      refine ⟨h1, acnValid_of (env := r.2) hok.2.2 hr.2.1 h1 h2 (fun k x hx => (h3 k x hx).2) (fun k l y hm hy => hi k l y hm (hr'.1.1.may k y hy))⟩
    · simp only [validA, Bool.and_eq_true, decide_eq_true_eq, List.all_eq_true] at hv
      simp only [AHas, Inner]
      refine ⟨⟨hv.1.1, hv.1.2, fun v hm => (hq.2.1 v hm (hv.2 v hm)).1⟩, fun v hm => (hq.2.1 v hm (hv.2 v hm)).2, ?_⟩
      cases k with
      | none => simp only [required]; exact AgreeOn.nil
      | some j =>
        simp only [required]
        refine AgreeOn.one (hsc.1 j rfl) ?_
        rw [hq.1 j (hdj j (hsc.1 j rfl)), hcn j rfl, hq.2.2]
        simp
  | .choice byDet alts, av, ctx, P, env, hok, hsc, hg, hr, hn, hdj, hd, hi, he => by
    simp only [AOk, AGuarded, Scoped, ARelays] at hok hg hsc hr
    simp only [dets] at hn hdj hd hi
    simp only [decA]
    refine SafeQ.ite (fun hb => ?_) (fun hb => ?_)
    · have hk : ∀ c ∈ alts.conds, ∀ q ∈ c, q.1 ∈ ctx := fun c hc q hq =>
        hsc.1 hb _ ((((hok.2.2.1 hb).1 c hc).2 q.1).1 (List.mem_map_of_mem hq))
      refine (decAAltDet_relay alts av ctx P 0 env hok.2.2.2 hk hsc.2 hg hr hn hdj hd hi he).mono (fun r hr => ?_)
      obtain ⟨hkeep, j, v, h1, h2, h3⟩ := hr
      rw [Nat.zero_add] at h1
      refine ⟨by simpa only [dets] using hkeep, fun hv => ?_⟩
      rw [h1] at hv ⊢
      simp only [validA] at hv
      obtain ⟨k1, k2, k3⟩ := h3 hv
      simp only [AHas, Inner, required, dets, strKeys, hb, if_true]
      refine ⟨k1, k2, AgreeOn.append ?_ k3⟩
      intro k x hx
      have hkc := hk _ (mem_conds_getD (aHasAlt_conds alts j v k1)) _ hx
      exact ⟨.inl hkc, x, by rw [hkeep k (hdj k hkc)]; exact h2 _ hx, .inl rfl⟩
    · refine (SafeQ.ofSafe (decodeConstraintWholeNumber_safe (lo := 0) (hi := (alts.length : Int) - 1) (by omega) (by omega) (by omega) (by omega))).bind
        (fun q _ => ?_) (fun _ => ⟨_, by rw [if_neg (by simp)]⟩)
      rw [if_pos rfl]
      refine (decAAlt_relay alts av ctx P q.toNat env hok.2.2.2 hsc.2 hg hr hn hdj hd hi he).map (fun p hp => ⟨hp, fun hq => ⟨by simpa only [dets] using hq.1, fun hv => ?_⟩⟩)
      simp only [validA] at hv
      simp only [AHas, Inner, required, dets, strKeys, hb, Bool.false_eq_true, if_false, List.nil_append]
      exact hq.2 hv
  | .ref args t, av, ctx, P, env, hok, hsc, hg, hr, hn, hdj, hd, hi, he => by
    simp only [AOk, AGuarded, Scoped, ARelays] at hok hg hsc hr
    obtain ⟨env', h1, h2⟩ := passArgs_total he hsc.1
    obtain ⟨env'', h1', h2'⟩ := passArgs_get he hsc.1 hok.1
    have ee : env'' = env' := by
      have := h1'.symm.trans h1
      have := congrFun this (BitStream.mk [] 0 0 0)
      simp only [pure_run, Res.ok.injEq, Prod.mk.injEq] at this
      exact this.1
    subst ee
    simp only [decA, h1, pure_bind]
    have h3 : EnvIn (args.map (·.2)) (mayBe (fun j x => ∃ k, (k, j) ∈ args ∧ P k x) t) env'' := ⟨h2.has, fun k x hx => .inl (h2.may k x hx)⟩
    have hdj' : ∀ k ∈ args.map (·.2), k ∉ (dets t).map (·.1) := fun k hk => by
      obtain ⟨a, ha, rfl⟩ := List.mem_map.1 hk
      exact hr.2.1 a ha
    have hinv : ∀ k l x, (k, l) ∈ dets t → mayBe (fun j x => ∃ k, (k, j) ∈ args ∧ P k x) t k x → DetMay l x := by
      intro k l x hm hx
      rcases hx with ⟨j, hj, _⟩ | ⟨l', hl', hx⟩
      · exact absurd (List.mem_map_of_mem (f := (·.1)) hm) (hr.2.1 _ hj)
      · have : l' = l := by
          have := nodup_keys_unique hr.1 hl' hm
          exact this
        rw [← this]; exact hx
    refine ((decA_safe t _ _ _ env'' hok.2.2 hsc.2 hg (fun k l x hm hx => .inr ⟨l, hm, hx⟩) h3).and
      (decA_relay t _ _ _ env'' hok.2.2 hsc.2 hg hr.2.2.2 hr.1 hdj' (fun k l x hm hx => .inr ⟨l, hm, hx⟩) hinv h3)).map (fun p hp => ?_)
    simp only [Bool.and_eq_true] at hp
    refine ⟨hp.1, fun hq => ⟨Keeps.refl _ _, fun hv => ?_⟩⟩
    simp only [validA] at hv
    obtain ⟨k1, k2, k3⟩ := hq.2.2 hv
    simp only [AHas, Inner]
    refine ⟨k1, acnValid_of (env := p.2.2) hok.2.2 hr.2.2.1 k1 k2 (fun k x hx => (k3 k x hx).2)
      (fun k l y hm hy => hinv k l y hm (hq.1.1.may k y hy)), ?_⟩
    intro k x hx
    simp only [required, List.mem_flatMap, List.mem_map, List.mem_filter, decide_eq_true_eq] at hx
    obtain ⟨a, ha, q, ⟨hq1, hq2⟩, hq3⟩ := hx
    obtain ⟨q1, q2⟩ := q
    simp only [Prod.mk.injEq] at hq2 hq3
    obtain ⟨rfl, rfl⟩ := hq3
    subst hq2
    obtain ⟨_, y, hy, hxy⟩ := k3 a.2 q2 hq1
    rw [hq.2.1 a.2 (hr.2.1 a ha), h2' a ha] at hy
    refine ⟨.inl (hsc.1 a ha), y, hy, hxy.imp id (fun h => ⟨?_, h.2⟩)⟩
    simp only [strKeys, List.mem_map, List.mem_filter, decide_eq_true_eq]
    exact ⟨a, ⟨ha, h.1⟩, rfl⟩
  | .align a t, av, ctx, P, env, hok, hsc, hg, hr, hn, hdj, hd, hi, he => by
    simp only [AOk, AGuarded, Scoped, ARelays] at hok hg hsc hr
    simp only [dets] at hn hdj hd hi
    simp only [decA]
    rw [hg.1]
    refine ((decA_relay t av ctx P env hok hsc hg.2 hr hn hdj hd hi he).mono (fun r hr => ⟨by simpa only [dets] using hr.1, fun hv => ?_⟩)).align
    simp only [validA] at hv
    simp only [AHas, Inner, required, dets, strKeys]
    exact hr.2 hv
theorem decAFields_relay : ∀ (fs : AFields) (av ctx : List Nat) (P : Nat → Int → Prop) (bs : List Bool) (env : DetEnv), AOkFields fs → ScopedFields av ctx fs →
    AGuardedFields P fs → ARelaysFields P fs → ((detsFields fs).map (·.1)).Nodup → (∀ k ∈ ctx, k ∉ (detsFields fs).map (·.1)) →
    (∀ k l x, (k, l) ∈ detsFields fs → DetMay l x → P k x) → (∀ k l x, (k, l) ∈ detsFields fs → P k x → DetMay l x) → EnvIn ctx P env → bs.length = presLen fs →
    SafeQ (decAFields fs bs env) (fun r => Keeps ((detsFields fs).map (·.1)) env r.2 ∧
      (validAFields fs r.1 = true → AHasFields fs r.1 ∧ InnerFields fs r.1 ∧
        AgreeOn ctx ((detsFields fs).map (·.1)) (strKeysFields fs) (requiredFields fs r.1) r.2))
  | .nil, av, ctx, P, bs, env, hok, hsc, hg, hr, hn, hdj, hd, hi, he, hb => by
    simp only [decAFields]
    refine SafeQ.pure (fun _ => ⟨Keeps.refl _ _, fun _ => ?_⟩)
    simp only [AHasFields, InnerFields, requiredFields]
    exact ⟨trivial, trivial, AgreeOn.nil⟩
  | .asn1 o t rest, av, ctx, P, bs, env, hok, hsc, hg, hr, hn, hdj, hd, hi, he, hb => by
    simp only [AOkFields, AGuardedFields, ScopedFields, ARelaysFields] at hok hg hsc hr
    simp only [detsFields, List.mem_append] at hd hi
    simp only [detsFields, List.map_append, List.mem_append, not_or] at hdj
    simp only [detsFields, List.map_append] at hn
    rw [List.nodup_append] at hn
    rw [presLen_asn1] at hb
    obtain ⟨e, bs', h1, h2, hfl, hpq⟩ := presFlag_total2 he hsc.1 hb hr.1
    simp only [decAFields, h1, pure_bind]
    have halw : o.always = true → e = true := fun h => by
      cases o <;> simp_all [AOpt.always, AOpt.flagOk]
    have hfirst : SafeQ (if e = true then decA t env else pure (true, (absentVal o, env)))
        (fun r => (EnvIn (if o.always = true then provides t else []) P r.2 ∧ Grows env r.2) ∧
          (Keeps ((dets t).map (·.1)) env r.2 ∧ if e = true then RelayQ ctx t env r else r = (absentVal o, env))) := by
      cases e with
      | true =>
        simp only [if_true]
        refine ((decA_safe t av ctx P env hok.1 hsc.2.1 hg.1 (fun k l x hm => hd k l x (.inl hm)) he).and
          (decA_relay t av ctx P env hok.1 hsc.2.1 hg.1 hr.2.1 hn.1 (fun k hk => (hdj k hk).1) (fun k l x hm => hd k l x (.inl hm))
            (fun k l x hm => hi k l x (.inl hm)) he)).mono (fun r hr => ⟨⟨?_, hr.1.2⟩, hr.2.1, hr.2⟩)
        split
        · exact hr.1.1
        · exact hr.1.1.nil
      | false =>
        simp only [Bool.false_eq_true, if_false]
        refine SafeQ.pure (fun _ => ⟨⟨?_, Grows.refl _⟩, Keeps.refl _ _, rfl⟩)
        split
        · rename_i ha; cases halw ha
        · exact he.nil
    refine hfirst.bind (fun p hp => ?_) (fun _ => ⟨_, by rw [if_neg (by simp)]⟩)
    rw [if_pos rfl]
    have he' := he.join hp.1.1 hp.1.2
    have hdj2 : ∀ k ∈ (if o.always = true then provides t else []) ++ ctx, k ∉ (detsFields rest).map (·.1) := by
      intro k hk
      rcases List.mem_append.1 hk with hk | hk
      · split at hk
        · intro hc
          exact hn.2.2 k (provides_dets t k hk) k hc rfl
        · simp at hk
      · exact (hdj k hk).2
    refine (decAFields_relay rest _ _ P bs' p.2 hok.2 hsc.2.2 hg.2 hr.2.2 hn.2.1 hdj2 (fun k l x hm => hd k l x (.inr hm))
      (fun k l x hm => hi k l x (.inr hm)) he' h2).map (fun q hq => ⟨hq, fun hrest => ?_⟩)
    simp only [detsFields, List.map_append]
    refine ⟨(hp.2.1.mono (fun k hk => List.mem_append_left _ hk)).trans (hrest.1.mono (fun k hk => List.mem_append_right _ hk)), fun hv => ?_⟩
    -- the variables that the first component is about are not written again
    have hkeep2 : ∀ k, k ∈ ctx ∨ k ∈ (dets t).map (·.1) → q.2.2 k = p.2 k := fun k hk => by
      refine hrest.1 k ?_
      rcases hk with hk | hk
      · exact (hdj k hk).2
      · exact fun hc => hn.2.2 k hk k hc rfl
    have hval : validAFields rest q.2.1 = true ∧ (e = true → validA t p.1 = true) := by
      cases o with
      | mandatory => simp only [validAFields, Bool.and_eq_true] at hv; exact ⟨hv.2, fun _ => hv.1⟩
      | present => simp only [validAFields, Bool.and_eq_true] at hv; exact ⟨hv.2, fun _ => hv.1.2⟩
      | absent =>
        simp only [validAFields, Bool.and_eq_true] at hv
        refine ⟨hv.2, fun h => ?_⟩
        have := hv.1
        rw [h] at this; simp at this
      | optional pr d =>
        simp only [validAFields, Bool.and_eq_true] at hv
        refine ⟨hv.2, fun h => ?_⟩
        have := hv.1
        rw [h] at this; simpa using this
    obtain ⟨r1, r2, r3⟩ := hrest.2 hval.1
    have hfst : e = true → AHas t p.1 ∧ Inner t p.1 ∧ AgreeOn ctx ((dets t).map (·.1)) (strKeys t) (required t p.1) p.2 := fun h => by
      have := hp.2.2
      rw [if_pos h] at this
      exact this.2 (hval.2 h)
    have hkc : ∀ k ∈ ctx, p.2 k = env k := fun k hk => hp.2.1 k (hdj k hk).1
    refine ⟨?_, ?_, ?_⟩
    · cases o with
      | mandatory =>
        simp only [AOpt.flagOk] at hfl
        subst hfl
        simp only [AHasFields]
        exact ⟨⟨trivial, (hfst rfl).1⟩, r1⟩
      | present =>
        simp only [AOpt.flagOk] at hfl
        subst hfl
        simp only [AHasFields]
        exact ⟨⟨trivial, (hfst rfl).1⟩, r1⟩
      | absent =>
        simp only [AOpt.flagOk] at hfl
        subst hfl
        have := hp.2.2
        simp only [Bool.false_eq_true, if_false] at this
        simp only [AHasFields]
        exact ⟨⟨trivial, by rw [this]; rfl⟩, r1⟩
      | optional pr d =>
        cases e with
        | true => cases d <;> (simp only [AHasFields]; exact ⟨.inl ⟨trivial, (hfst rfl).1⟩, r1⟩)
        | false =>
          have := hp.2.2
          simp only [Bool.false_eq_true, if_false] at this
          cases d <;> (simp only [AHasFields]; exact ⟨.inr ⟨trivial, by rw [this]; rfl⟩, r1⟩)
    · simp only [InnerFields]
      exact ⟨fun h => (hfst h).2.1, r2⟩
    · simp only [requiredFields, strKeysFields]
      refine AgreeOn.append (AgreeOn.append ?_ ?_) ?_
      · refine hpq.step (fun k hk => ?_) (fun k hk => .inl (hk.resolve_right (by simp))) (by simp)
        have hk := hk.resolve_right (by simp)
        rw [hkeep2 k (.inl hk), hkc k hk]
      · split
        · rename_i h
          exact (hfst h).2.2.step hkeep2 (fun k hk => hk.imp id (List.mem_append_left _)) (fun k hk => List.mem_append_left _ hk)
        · exact AgreeOn.nil
      · refine r3.step (fun _ _ => rfl) (fun k hk => ?_) (fun k hk => List.mem_append_right _ hk)
        rcases hk with hk | hk
        · rcases List.mem_append.1 hk with hk | hk
          · split at hk
            · exact .inr (List.mem_append_left _ (provides_dets t k hk))
            · simp at hk
          · exact .inl hk
        · exact .inr (List.mem_append_right _ hk)
  | .acn k a l rest, av, ctx, P, bs, env, hok, hsc, hg, hr, hn, hdj, hd, hi, he, hb => by
    simp only [AOkFields, AGuardedFields, ScopedFields, ARelaysFields] at hok hg hsc hr
    simp only [detsFields, List.mem_cons] at hd hi
    simp only [detsFields, List.map_cons, List.mem_cons, not_or] at hdj
    simp only [detsFields, List.map_cons, List.nodup_cons] at hn
    simp only [presLen] at hb
    simp only [decAFields]
    refine SafeQ.alignOpt hg.2.1 ?_
    refine (decLeaf_safeQ hg.1).bind (fun x hx => ?_) (fun _ => ⟨_, by rw [if_neg (by simp)]⟩)
    rw [if_pos rfl]
    have he' := he.set (hd k l x (.inl rfl) hx)
    refine (decAFields_relay rest _ _ P bs _ hok hsc.2 hg.2.2 hr hn.2 (fun j hj => ?_) (fun k l x hm => hd k l x (.inr hm))
      (fun k l x hm => hi k l x (.inr hm)) he' hb).mono (fun r hq => ?_)
    · rcases List.mem_cons.1 hj with rfl | hj
      · exact hn.1
      · exact (hdj j hj).2
    · simp only [detsFields, List.map_cons]
      refine ⟨fun j hj => ?_, fun hv => ?_⟩
      · simp only [List.mem_cons, not_or] at hj
        rw [hq.1 j hj.2]
        simp only [DetEnv.set, if_neg hj.1]
      · simp only [validAFields] at hv
        obtain ⟨r1, r2, r3⟩ := hq.2 hv
        simp only [AHasFields, InnerFields, requiredFields, strKeysFields]
        refine ⟨r1, r2, r3.step (fun _ _ => rfl) (fun j hj => ?_) (fun _ h => h)⟩
        rcases hj with hj | hj
        · rcases List.mem_cons.1 hj with rfl | hj
          · exact .inr List.mem_cons_self
          · exact .inl hj
        · exact .inr (List.mem_cons_of_mem _ hj)
  | .acnNull pat n rest, av, ctx, P, bs, env, hok, hsc, hg, hr, hn, hdj, hd, hi, he, hb => by
    simp only [AOkFields, AGuardedFields, ScopedFields, ARelaysFields] at hok hg hsc hr
    simp only [detsFields] at hd hi hn hdj
    simp only [presLen] at hb
    simp only [decAFields]
    refine (SafeQ.ofSafe (readBitPattern_safe hok.1)).bind (fun b _ => ?_) (fun _ => ⟨_, by rw [if_neg (by simp)]⟩)
    refine SafeQ.ite (fun _ => ?_) (fun _ => SafeQ.pure (by simp))
    refine (decAFields_relay rest av ctx P bs env hok.2 hsc hg hr hn hdj hd hi he hb).mono (fun r hq => ⟨by simpa only [detsFields] using hq.1, fun hv => ?_⟩)
    simp only [validAFields] at hv
    simp only [AHasFields, InnerFields, requiredFields, strKeysFields, detsFields]
    exact hq.2 hv
theorem decAAlt_relay : ∀ (alts : AAlts) (av ctx : List Nat) (P : Nat → Int → Prop) (i : Nat) (env : DetEnv), AOkAlts alts → ScopedAlts av ctx alts →
    AGuardedAlts P alts → ARelaysAlts P alts → ((detsAlts alts).map (·.1)).Nodup → (∀ k ∈ ctx, k ∉ (detsAlts alts).map (·.1)) →
    (∀ k l x, (k, l) ∈ detsAlts alts → DetMay l x → P k x) → (∀ k l x, (k, l) ∈ detsAlts alts → P k x → DetMay l x) → EnvIn ctx P env →
    SafeQ (decAAlt alts i env) (fun r => Keeps ((detsAlts alts).map (·.1)) env r.2 ∧
      (validAAlt alts i r.1 = true → AHasAlt alts i r.1 ∧ InnerAlt alts i r.1 ∧
        AgreeOn ctx ((detsAlts alts).map (·.1)) (strKeysAlts alts) (requiredAlt alts i r.1) r.2))
  | .nil, av, ctx, P, i, env, hok, hsc, hg, hr, hn, hdj, hd, hi, he => by
    simp only [decAAlt]
    exact SafeQ.pure (by simp)
  | .cons c t rest, av, ctx, P, 0, env, hok, hsc, hg, hr, hn, hdj, hd, hi, he => by
    simp only [AOkAlts, AGuardedAlts, ScopedAlts, ARelaysAlts] at hok hg hsc hr
    simp only [detsAlts, List.mem_append] at hd hi
    simp only [detsAlts, List.map_append, List.mem_append, not_or] at hdj
    simp only [detsAlts, List.map_append] at hn
    rw [List.nodup_append] at hn
    simp only [decAAlt]
    refine (decA_relay t av ctx P env hok.1 hsc.1 hg.1 hr.1 hn.1 (fun k hk => (hdj k hk).1) (fun k l x hm => hd k l x (.inl hm))
      (fun k l x hm => hi k l x (.inl hm)) he).mono (fun r hq => ?_)
    simp only [detsAlts, List.map_append]
    refine ⟨hq.1.mono (fun k hk => List.mem_append_left _ hk), fun hv => ?_⟩
    simp only [validAAlt] at hv
    obtain ⟨r1, r2, r3⟩ := hq.2 hv
    simp only [AHasAlt, InnerAlt, requiredAlt, strKeysAlts]
    exact ⟨r1, r2, r3.step (fun _ _ => rfl) (fun k hk => hk.imp id (List.mem_append_left _)) (fun k hk => List.mem_append_left _ hk)⟩
  | .cons c t rest, av, ctx, P, i + 1, env, hok, hsc, hg, hr, hn, hdj, hd, hi, he => by
    simp only [AOkAlts, AGuardedAlts, ScopedAlts, ARelaysAlts] at hok hg hsc hr
    simp only [detsAlts, List.mem_append] at hd hi
    simp only [detsAlts, List.map_append, List.mem_append, not_or] at hdj
    simp only [detsAlts, List.map_append] at hn
    rw [List.nodup_append] at hn
    simp only [decAAlt]
    refine (decAAlt_relay rest av ctx P i env hok.2 hsc.2 hg.2 hr.2 hn.2.1 (fun k hk => (hdj k hk).2) (fun k l x hm => hd k l x (.inr hm))
      (fun k l x hm => hi k l x (.inr hm)) he).mono (fun r hq => ?_)
    simp only [detsAlts, List.map_append]
    refine ⟨hq.1.mono (fun k hk => List.mem_append_right _ hk), fun hv => ?_⟩
    simp only [validAAlt] at hv
    obtain ⟨r1, r2, r3⟩ := hq.2 hv
    simp only [AHasAlt, InnerAlt, requiredAlt, strKeysAlts]
    exact ⟨r1, r2, r3.step (fun _ _ => rfl) (fun k hk => hk.imp id (List.mem_append_right _)) (fun k hk => List.mem_append_right _ hk)⟩
theorem decAAltDet_relay : ∀ (alts : AAlts) (av ctx : List Nat) (P : Nat → Int → Prop) (i : Nat) (env : DetEnv), AOkAlts alts → (∀ c ∈ alts.conds, ∀ q ∈ c, q.1 ∈ ctx) →
    ScopedAlts av ctx alts → AGuardedAlts P alts → ARelaysAlts P alts → ((detsAlts alts).map (·.1)).Nodup → (∀ k ∈ ctx, k ∉ (detsAlts alts).map (·.1)) →
    (∀ k l x, (k, l) ∈ detsAlts alts → DetMay l x → P k x) → (∀ k l x, (k, l) ∈ detsAlts alts → P k x → DetMay l x) → EnvIn ctx P env →
    SafeQ (decAAltDet alts i env) (fun r => Keeps ((detsAlts alts).map (·.1)) env r.2 ∧ ∃ j v, r.1 = .choice (i + j) v ∧
      (∀ q ∈ alts.conds.getD j [], env q.1 = some q.2) ∧
      (validAAlt alts j v = true → AHasAlt alts j v ∧ InnerAlt alts j v ∧
        AgreeOn ctx ((detsAlts alts).map (·.1)) (strKeysAlts alts) (requiredAlt alts j v) r.2))
  | .nil, av, ctx, P, i, env, hok, hk, hsc, hg, hr, hn, hdj, hd, hi, he => by
    simp only [decAAltDet]
    exact SafeQ.pure (by simp)
  | .cons c t rest, av, ctx, P, i, env, hok, hk, hsc, hg, hr, hn, hdj, hd, hi, he => by
    simp only [AOkAlts, AGuardedAlts, ScopedAlts, ARelaysAlts] at hok hg hsc hr
    simp only [detsAlts, List.mem_append] at hd hi
    simp only [detsAlts, List.map_append, List.mem_append, not_or] at hdj
    simp only [detsAlts, List.map_append] at hn
    rw [List.nodup_append] at hn
    obtain ⟨b, hb, hbt⟩ := condsHold_get he (c := c) (hk c (by simp [AAlts.conds]))
    simp only [decAAltDet, hb, pure_bind]
    refine SafeQ.ite (fun hbb => ?_) (fun _ => ?_)
    · refine (decA_relay t av ctx P env hok.1 hsc.1 hg.1 hr.1 hn.1 (fun k hk => (hdj k hk).1) (fun k l x hm => hd k l x (.inl hm))
        (fun k l x hm => hi k l x (.inl hm)) he).map (fun p hp => ⟨hp, fun hq => ?_⟩)
      simp only [detsAlts, List.map_append]
      refine ⟨hq.1.mono (fun k hk => List.mem_append_left _ hk), 0, p.2.1, rfl, ?_, fun hv => ?_⟩
      · simpa only [AAlts.conds, List.getD_cons_zero] using hbt hbb
      · simp only [validAAlt] at hv
        obtain ⟨r1, r2, r3⟩ := hq.2 hv
        simp only [AHasAlt, InnerAlt, requiredAlt, strKeysAlts]
        exact ⟨r1, r2, r3.step (fun _ _ => rfl) (fun k hk => hk.imp id (List.mem_append_left _)) (fun k hk => List.mem_append_left _ hk)⟩
    · refine (decAAltDet_relay rest av ctx P (i + 1) env hok.2 (fun d hd => hk d (by simp [AAlts.conds, hd])) hsc.2 hg.2 hr.2 hn.2.1 (fun k hk => (hdj k hk).2)
        (fun k l x hm => hd k l x (.inr hm)) (fun k l x hm => hi k l x (.inr hm)) he).mono (fun r hq => ?_)
      obtain ⟨h0, j, v, h1, h2, h3⟩ := hq
      simp only [detsAlts, List.map_append]
      refine ⟨h0.mono (fun k hk => List.mem_append_right _ hk), j + 1, v, by rw [h1, show i + 1 + j = i + (j + 1) by omega], ?_, fun hv => ?_⟩
      · simpa only [AAlts.conds, List.getD_cons_succ] using h2
      · simp only [validAAlt] at hv
        obtain ⟨r1, r2, r3⟩ := h3 hv
        simp only [AHasAlt, InnerAlt, requiredAlt, strKeysAlts]
        exact ⟨r1, r2, r3.step (fun _ _ => rfl) (fun k hk => hk.imp id (List.mem_append_right _)) (fun k hk => List.mem_append_right _ hk)⟩
end

/-- What a decoder accepts, it accepts again. -/
theorem decodeAcn_relay {t : ATy} (hok : AcnOk t) (hg : AcnGuarded t) (hr : AcnRelays t) : SafeQ (decodeAcn t) (AcnValid t) := by
  have e0 : EnvIn [] (fun _ _ => False) DetEnv.empty := ⟨by simp, fun k x h => by simp [DetEnv.empty] at h⟩
  have hP : (fun j x => ∃ k, (k, j) ∈ ([] : List (Nat × Nat)) ∧ False) = fun (_ : Nat) (_ : Int) => False := by
    funext j x; simp
  have h := decA_relay (.ref [] t) [] [] (fun _ _ => False) DetEnv.empty (by simp only [AOk]; exact ⟨by simp, by simp, hok.1⟩)
    (by simp only [Scoped, List.map_nil]; exact ⟨by simp, hok.2⟩)
    (by simp only [AGuarded]; rw [hP]; exact hg)
    (by simp only [ARelays]; rw [hP]; exact ⟨hr.1, by simp, hr.2.1, hr.2.2⟩) (by simp [dets]) (by simp) (by simp [dets]) (by simp [dets]) e0
  have hval : Post (decA (.ref [] t) DetEnv.empty) (fun r => validA (.ref [] t) r.1 = true) := by
    simp only [decA, validA, passArgs, pure_bind]
    refine Post.bind (fun p => Post.pure (fun hp => ?_))
    simp only [Bool.and_eq_true] at hp
    exact hp.2
  unfold decodeAcn
  refine (h.and (SafeQ.of h.safe hval)).map (h := fun p : Bool × (Val × DetEnv) => (p.1, p.2.1)) (fun p hp => ⟨hp, fun hq => ?_⟩)
  have := (hq.1.2 hq.2).2.1
  simp only [Inner] at this
  exact this

end Asn1
