import Verif.Proof.AcnGenSafe
/-! Generated ACN decoders on arbitrary input: strings, lists and the whole. -/
namespace Asn1

theorem decStrAscii_safe {lo hi : Nat} (h : lo ≤ hi) (h31 : hi < 2 ^ 31) : Safe (decStrAscii lo hi) := by
  unfold decStrAscii
  have hl : hi + 1 ≤ (List.replicate (hi + 1) 0#8).length := by simp
  refine Safe.map (h := fun p : Bool × List Byte => (p.1, p.2.takeWhile (· ≠ 0#8))) ?_ (fun _ h => h)
  refine Safe.ite (fun _ => (acnDecStrAsciiPrivate_safe hl (by omega)).1) (fun _ => ?_)
  exact (internal_safe (g := fun n => acnDecStrAsciiPrivate hi n (List.replicate (hi + 1) 0#8)) h (by omega)
    (fun n hn => acnDecStrAsciiPrivate_safe hl hn)).1

theorem decStrExt_safe (hi : Nat) (x : Int) : Safe (decStrExt hi x) := by
  unfold decStrExt
  refine Safe.map (h := fun p : Bool × List Byte => (p.1, p.2.takeWhile (· ≠ 0#8))) ?_ (fun _ h => h)
  exact (acnDecStrAsciiPrivate_safe (by simp) (clip_le _ _)).1

theorem decStrIdx_safe {alphabet : List Byte} (hi : Nat) (x : Int) (h1 : 1 ≤ alphabet.length) (h2 : alphabet.length < 2 ^ 31) :
    Safe (decStrIdx alphabet hi x) := by
  unfold decStrIdx
  refine Safe.map (h := fun p : Bool × List Byte => (p.1, p.2.takeWhile (· ≠ 0#8))) ?_ (fun _ h => h)
  refine Safe.ite (fun _ => ?_) (fun _ => ?_)
  · have := (acnDecStrIndexPrivate_safe (max := hi) (n := clip x hi) (set := ia5Set) (dst := List.replicate (hi + 1) 0#8)
      (by rw [ia5_length]; omega) (by rw [ia5_length]; omega) (by simp) (clip_le _ _)).1
    rw [ia5_length] at this
    exact this
  · exact (acnDecStrIndexPrivate_safe h2 h1 (by simp) (clip_le _ _)).1

/-- The emitted tests leave a count that fits, when the type is guarded. -/
theorem extOk_le {lo hi : Nat} {dmax : Option Int} {x : Int} (hg : 0 ≤ x ∧ (x ≤ hi ∨ ∀ m, dmax = some m → (hi : Int) < m)) (h : extOk lo hi dmax x = true) :
    ∃ n : Nat, x = n ∧ n ≤ hi := by
  obtain ⟨n, rfl⟩ := Int.eq_ofNat_of_zero_le hg.1
  refine ⟨n, rfl, ?_⟩
  rcases hg.2 with h2 | h2
  · omega
  · unfold extOk at h
    rw [Bool.and_eq_true, Bool.or_eq_true] at h
    obtain ⟨_, h⟩ := h
    cases dmax with
    | none => simpa using h
    | some m =>
      have := h2 m rfl
      simp only [Bool.or_eq_true, decide_eq_true_eq] at h
      omega

theorem decOctetsExt_safe {lo hi : Nat} {dmax : Option Int} {x : Int} (h31 : hi < 2 ^ 31)
    (hg : lo = hi ∨ 0 ≤ x ∧ (x ≤ hi ∨ ∀ m, dmax = some m → (hi : Int) < m)) : Safe (decOctetsExt lo hi dmax x) := by
  unfold decOctetsExt
  refine Safe.ite (fun _ => Safe.ite (fun _ => decodeOctetStringNoLength_safe _) (fun _ => Safe.pure _ _)) (fun hne => ?_)
  refine Safe.ite (fun he => ?_) (fun _ => Safe.pure _ _)
  obtain ⟨n, rfl, hn⟩ := extOk_le (hg.resolve_left hne) he
  rw [extCount_nat (by omega), pure_bind]
  refine (decodeOctetStringNoLength_safe n).bind (fun a => ?_) (fun a => ⟨a, by simp⟩)
  rw [if_neg (by simpa using hn)]
  exact Safe.pure _ _

theorem decBitsExt_safe {lo hi : Nat} {dmax : Option Int} {x : Int} (h31 : hi < 2 ^ 31)
    (hg : lo = hi ∨ 0 ≤ x ∧ (x ≤ hi ∨ ∀ m, dmax = some m → (hi : Int) < m)) : Safe (decBitsExt lo hi dmax x) := by
  unfold decBitsExt
  have rd : ∀ n, Safe (do let p ← readBits n; pure (p.1, (n, p.2))) := fun n =>
    (readBits_safe n).map (h := fun p : Bool × List Byte => (p.1, (n, p.2))) (fun _ h => h)
  refine Safe.ite (fun _ => Safe.ite (fun _ => rd hi) (fun _ => Safe.pure _ _)) (fun hne => ?_)
  refine Safe.ite (fun he => ?_) (fun _ => Safe.pure _ _)
  obtain ⟨n, rfl, hn⟩ := extOk_le (hg.resolve_left hne) he
  rw [extCount_nat (by omega), pure_bind, if_neg (by omega)]
  exact rd n

theorem readBitPattern_safe {pat : List Byte} {n : Nat} (h : n ≤ 8 * pat.length) : Safe (readBitPattern pat n) :=
  safe_of_reads (n := n) (fun _ hw => ⟨⟨_, (readBitPattern_reads h hw).1⟩, (readBitPattern_reads h hw).2⟩)

theorem SafeQ.align {α : Type} {f : M (Bool × α)} {Q : α → Prop} (h : SafeQ f Q) : SafeQ (do alignTo .byte; f) Q := by
  intro s hwf hp hsl
  have hu : alignUp Align.byte.size s.pos ≤ 8 * s.count := by
    simp only [alignUp, Align.size]; omega
  have a1 := alignTo_run .byte hwf.bit hu
  have a3 : (atPos s (alignUp Align.byte.size s.pos)).pos = alignUp Align.byte.size s.pos := atPos_pos _ _
  obtain ⟨r, s', k1, k2, k3, k4⟩ := h (atPos s (alignUp Align.byte.size s.pos)) ⟨by simp only [atPos]; omega, hwf.cap⟩ (by rw [a3]; exact hu) hsl
  refine ⟨r, s', by rw [bind_ok a1]; exact k1, k2, k3, fun e => ?_⟩
  obtain ⟨m0, m1, m2, m3⟩ := k4 e
  refine ⟨m0, m1, m2, ?_⟩
  rw [a3] at m3
  have : s.pos ≤ alignUp Align.byte.size s.pos := by simp only [alignUp, Align.size]; omega
  omega

theorem SafeQ.alignOpt {α : Type} {f : M (Bool × α)} {Q : α → Prop} {a : Option Align} (ha : ∀ b, a = some b → b = .byte) (h : SafeQ f Q) :
    SafeQ (do alignOpt a; f) Q := by
  cases a with
  | none => exact h
  | some b =>
    have := ha b rfl
    subst this
    exact h.align

/-! ### The variables of the determinants -/

/-- What is known of the variables: the determinants of `ctx` are there, and each variable has a value it may have. -/
structure EnvIn (ctx : List Nat) (P : Nat → Int → Prop) (env : DetEnv) : Prop where
  has : ∀ k ∈ ctx, ∃ x, env k = some x
  may : ∀ k x, env k = some x → P k x

/-- No variable loses its value. -/
def Grows (e e' : DetEnv) : Prop := ∀ k x, e k = some x → ∃ y, e' k = some y

theorem Grows.refl (e : DetEnv) : Grows e e := fun _ x h => ⟨x, h⟩
theorem Grows.trans {a b c : DetEnv} (h : Grows a b) (h' : Grows b c) : Grows a c := fun k x e => by
  obtain ⟨y, hy⟩ := h k x e
  exact h' k y hy

theorem EnvIn.nil {ctx : List Nat} {P : Nat → Int → Prop} {env : DetEnv} (h : EnvIn ctx P env) : EnvIn [] P env := ⟨by simp, h.may⟩

theorem EnvIn.join {ctx pr : List Nat} {P : Nat → Int → Prop} {e e' : DetEnv} (h : EnvIn ctx P e) (h' : EnvIn pr P e') (g : Grows e e') :
    EnvIn (pr ++ ctx) P e' := by
  refine ⟨fun k hk => ?_, h'.may⟩
  rcases List.mem_append.1 hk with hk | hk
  · exact h'.has k hk
  · obtain ⟨x, hx⟩ := h.has k hk
    exact g k x hx

theorem EnvIn.set {ctx : List Nat} {P : Nat → Int → Prop} {env : DetEnv} (h : EnvIn ctx P env) {k : Nat} {x : Int} (hx : P k x) :
    EnvIn (k :: ctx) P (env.set k x) := by
  refine ⟨fun j hj => ?_, fun j y hy => ?_⟩
  · simp only [DetEnv.set]
    split
    · exact ⟨_, rfl⟩
    · rename_i hne
      exact h.has j ((List.mem_cons.1 hj).resolve_left hne)
  · simp only [DetEnv.set] at hy
    split at hy
    · rename_i e; subst e; cases hy; exact hx
    · exact h.may j y hy

theorem Grows.set (env : DetEnv) (k : Nat) (x : Int) : Grows env (env.set k x) := by
  intro j y h
  simp only [DetEnv.set]
  split
  · exact ⟨_, rfl⟩
  · exact ⟨y, h⟩

theorem EnvIn.get {ctx : List Nat} {P : Nat → Int → Prop} {env : DetEnv} (h : EnvIn ctx P env) {k : Nat} (hk : k ∈ ctx) :
    ∃ x, envGet env k = pure x ∧ P k x := by
  obtain ⟨x, hx⟩ := h.has k hk
  exact ⟨x, by simp only [envGet, hx], h.may k x hx⟩

theorem condsHold_total {ctx : List Nat} {P : Nat → Int → Prop} {env : DetEnv} (h : EnvIn ctx P env) :
    ∀ {c : List (Nat × Int)}, (∀ q ∈ c, q.1 ∈ ctx) → ∃ b, condsHold env c = pure b
  | [], _ => ⟨true, rfl⟩
  | (k, x) :: c, hc => by
    obtain ⟨y, hy, _⟩ := h.get (hc _ List.mem_cons_self)
    simp only [condsHold, hy, pure_bind]
    split
    · exact condsHold_total h (fun q hq => hc q (List.mem_cons_of_mem _ hq))
    · exact ⟨false, rfl⟩

theorem passArgs_total {ctx : List Nat} {P : Nat → Int → Prop} {env : DetEnv} (h : EnvIn ctx P env) :
    ∀ {args : List (Nat × Nat)}, (∀ a ∈ args, a.1 ∈ ctx) →
      ∃ env', passArgs env args = pure env' ∧ EnvIn (args.map (·.2)) (fun j x => ∃ k, (k, j) ∈ args ∧ P k x) env'
  | [], _ => ⟨DetEnv.empty, rfl, ⟨by simp, fun k x hx => by simp [DetEnv.empty] at hx⟩⟩
  | (k, j) :: args, hc => by
    obtain ⟨y, hy, hP⟩ := h.get (hc _ List.mem_cons_self)
    obtain ⟨env', h1, h2⟩ := passArgs_total h (args := args) (fun a ha => hc a (List.mem_cons_of_mem _ ha))
    refine ⟨env'.set j y, by simp only [passArgs, hy, h1, pure_bind], ?_⟩
    have h3 : EnvIn (args.map (·.2)) (fun i x => ∃ l, (l, i) ∈ (k, j) :: args ∧ P l x) env' :=
      ⟨h2.has, fun i x hx => by
        obtain ⟨l, hl, hp⟩ := h2.may i x hx
        exact ⟨l, List.mem_cons_of_mem _ hl, hp⟩⟩
    exact h3.set ⟨k, List.mem_cons_self, hP⟩

/-- The number of presence bits of a SEQUENCE. -/
def presLen : AFields → Nat
  | .nil => 0
  | .asn1 (.optional .bit _) _ rest => presLen rest + 1
  | .asn1 _ _ rest => presLen rest
  | .acn _ _ _ rest => presLen rest
  | .acnNull _ _ rest => presLen rest

theorem decPresA_safeQ : ∀ fs : AFields, SafeQ (decPresA fs) (fun bs => bs.length = presLen fs)
  | .nil => SafeQ.pure (fun _ => rfl)
  | .acn _ _ _ rest => decPresA_safeQ rest
  | .acnNull _ _ rest => decPresA_safeQ rest
  | .asn1 .mandatory _ rest => decPresA_safeQ rest
  | .asn1 .absent _ rest => decPresA_safeQ rest
  | .asn1 .present _ rest => decPresA_safeQ rest
  | .asn1 (.optional (.whenBool _) _) _ rest => decPresA_safeQ rest
  | .asn1 (.optional .bit _) _ rest => by
    simp only [decPresA, presLen]
    refine (SafeQ.ofSafe readBit_safe).bind (fun b _ => ?_) (fun _ => ⟨[], by rw [if_neg (by simp)]⟩)
    rw [if_pos rfl]
    exact (decPresA_safeQ rest).map (fun p hp => ⟨hp, fun hq => by simp [hq]⟩)

/-- The presence bits that a component takes. -/
def AOpt.flags : AOpt → Nat
  | .optional .bit _ => 1
  | _ => 0

theorem presLen_asn1 (o : AOpt) (t : ATy) (rest : AFields) : presLen (.asn1 o t rest) = o.flags + presLen rest := by
  cases o with
  | optional p d => cases p <;> simp only [presLen, AOpt.flags] <;> omega
  | _ => simp only [presLen, AOpt.flags]; omega

theorem presFlag_total {ctx : List Nat} {P : Nat → Int → Prop} {env : DetEnv} (h : EnvIn ctx P env) {o : AOpt} {bs : List Bool} {n : Nat}
    (hu : ∀ k ∈ o.uses, k ∈ ctx) (hb : bs.length = o.flags + n) :
    ∃ e bs', presFlag o bs env = pure (e, bs') ∧ bs'.length = n ∧ (o.always = true → e = true) := by
  cases o with
  | mandatory => exact ⟨true, bs, rfl, by simpa [AOpt.flags] using hb, fun _ => rfl⟩
  | absent => exact ⟨false, bs, rfl, by simpa [AOpt.flags] using hb, fun h => by simp [AOpt.always] at h⟩
  | present => exact ⟨true, bs, rfl, by simpa [AOpt.flags] using hb, fun _ => rfl⟩
  | optional p d =>
    cases p with
    | bit =>
      cases bs with
      | nil => simp [AOpt.flags] at hb; omega
      | cons b bs => exact ⟨b, bs, rfl, by simp [AOpt.flags] at hb; omega, fun h => by simp [AOpt.always] at h⟩
    | whenBool k =>
      obtain ⟨x, hx, _⟩ := h.get (hu k (by simp [AOpt.uses]))
      exact ⟨decide (x ≠ 0), bs, by simp only [presFlag, hx, pure_bind], by simpa [AOpt.flags] using hb, fun h => by simp [AOpt.always] at h⟩

theorem decItemsA_safeQ {P : Nat → Int → Prop} {item : DetEnv → M (Bool × (Val × DetEnv))}
    (h : ∀ env, EnvIn [] P env → SafeQ (item env) (fun r => EnvIn [] P r.2 ∧ Grows env r.2)) :
    ∀ (n : Nat) (env : DetEnv) (acc : List Val), EnvIn [] P env → SafeQ (decItemsA item n env acc) (fun r => EnvIn [] P r.2 ∧ Grows env r.2)
  | 0, env, acc, he => SafeQ.pure (fun _ => ⟨he, Grows.refl _⟩)
  | n + 1, env, acc, he => by
    simp only [decItemsA]
    refine (h env he).bind (fun r hr => ?_) (fun r => ⟨(acc, r.2), by rw [if_neg (by simp)]⟩)
    rw [if_pos rfl]
    exact (decItemsA_safeQ h n r.2 _ hr.1).mono (fun q hq => ⟨hq.1, hr.2.trans hq.2⟩)

theorem decCount_safe {P : Nat → Int → Prop} {lo hi : Nat} {k : Option Nat} {env : DetEnv} {ctx : List Nat} (he : EnvIn ctx P env) (hk : ∀ j, k = some j → j ∈ ctx)
    (h : lo ≤ hi) (h31 : hi < 2 ^ 31) (hg : ∀ j, k = some j → lo = hi ∨ ∀ x, P j x → 0 ≤ x) : Safe (decCount lo hi k env) := by
  cases k with
  | none =>
    simp only [decCount]
    refine Safe.ite (fun _ => Safe.pure _ _) (fun _ => ?_)
    exact (decodeConstraintWholeNumber_safe (lo := lo) (hi := hi) (by omega) (by omega) (by omega) (by omega)).map
      (h := fun q : Bool × Int => (q.1, q.2.toNat)) (fun _ h => h)
  | some j =>
    obtain ⟨x, hx, hp⟩ := he.get (hk j rfl)
    simp only [decCount, hx, pure_bind]
    refine Safe.ite (fun hc => Safe.ite (fun _ => Safe.pure _ _) (fun hne => ?_)) (fun _ => Safe.pure _ _)
    have h0 := ((hg j rfl).resolve_left hne) x hp
    rw [Bool.and_eq_true] at hc
    have := of_decide_eq_true hc.2
    obtain ⟨n, rfl⟩ := Int.eq_ofNat_of_zero_le h0
    rw [extCount_nat (by omega), pure_bind]
    exact Safe.pure _ _

/-! ### The decoders -/

mutual
theorem decA_safe : ∀ (t : ATy) (av ctx : List Nat) (P : Nat → Int → Prop) (env : DetEnv), AOk t → Scoped av ctx t → AGuarded P t →
    (∀ k l x, (k, l) ∈ dets t → DetMay l x → P k x) → EnvIn ctx P env →
    SafeQ (decA t env) (fun r => EnvIn (provides t) P r.2 ∧ Grows env r.2)
  | .prim t, av, ctx, P, env, hok, hsc, hg, hd, he => by
    simp only [AOk, AGuarded] at hok hg
    simp only [decA, provides]
    exact (SafeQ.ofSafe (decTy_safe t hok.1 hg)).map (fun p hp => ⟨hp, fun _ => ⟨he.nil, Grows.refl _⟩⟩)
  | .leaf l, av, ctx, P, env, hok, hsc, hg, hd, he => by
    simp only [AGuarded] at hg
    simp only [decA, provides]
    exact (decLeaf_safeQ hg).map (fun p hp => ⟨hp, fun _ => ⟨he.nil, Grows.refl _⟩⟩)
  | .nullPat pat n, av, ctx, P, env, hok, hsc, hg, hd, he => by
    simp only [AOk] at hok
    simp only [decA, provides]
    exact (SafeQ.ofSafe (readBitPattern_safe hok)).map (fun p hp => ⟨by simp only [Bool.and_eq_true] at hp; exact hp.1, fun _ => ⟨he.nil, Grows.refl _⟩⟩)
  | .real64 little _, av, ctx, P, env, hok, hsc, hg, hd, he => by
    simp only [decA, provides]
    exact (SafeQ.ofSafe (Safe.ite (fun _ => acnDecRealLittle_safe 8) (fun _ => acnDecRealBig_safe 8))).map (fun p hp => ⟨hp, fun _ => ⟨he.nil, Grows.refl _⟩⟩)
  | .real32 little _, av, ctx, P, env, hok, hsc, hg, hd, he => by
    simp only [AGuarded] at hg
    subst hg
    simp only [decA, provides, Bool.false_eq_true, if_false]
    exact (SafeQ.ofSafe (acnDecRealBig_safe 4)).map (fun p hp => ⟨hp, fun _ => ⟨he.nil, Grows.refl _⟩⟩)
  | .octets lo hi k dmax, av, ctx, P, env, hok, hsc, hg, hd, he => by
    simp only [AOk, AGuarded, Scoped] at hok hg hsc
    obtain ⟨x, hx, hp⟩ := he.get hsc
    simp only [decA, provides, hx, pure_bind]
    exact (SafeQ.ofSafe (decOctetsExt_safe (lo := lo) hok.2 (hg.imp id (fun h => h x hp)))).map (fun p hp => ⟨hp, fun _ => ⟨he.nil, Grows.refl _⟩⟩)
  | .bits lo hi k dmax, av, ctx, P, env, hok, hsc, hg, hd, he => by
    simp only [AOk, AGuarded, Scoped] at hok hg hsc
    obtain ⟨x, hx, hp⟩ := he.get hsc
    simp only [decA, provides, hx, pure_bind]
    exact (SafeQ.ofSafe (decBitsExt_safe (lo := lo) hok.2 (hg.imp id (fun h => h x hp)))).map (fun p hp => ⟨hp, fun _ => ⟨he.nil, Grows.refl _⟩⟩)
  | .strAscii _ lo hi, av, ctx, P, env, hok, hsc, hg, hd, he => by
    simp only [AOk] at hok
    simp only [decA, provides]
    exact (SafeQ.ofSafe (decStrAscii_safe hok.1 hok.2)).map (fun p hp => ⟨hp, fun _ => ⟨he.nil, Grows.refl _⟩⟩)
  | .strNull _ _ _ _, av, ctx, P, env, hok, hsc, hg, hd, he => by
    simp only [AGuarded] at hg
  | .strExt _ lo hi k, av, ctx, P, env, hok, hsc, hg, hd, he => by
    simp only [Scoped] at hsc
    obtain ⟨x, hx, hp⟩ := he.get hsc
    simp only [decA, provides, hx, pure_bind]
    exact (SafeQ.ofSafe (decStrExt_safe hi x)).map (fun p hp => ⟨hp, fun _ => ⟨he.nil, Grows.refl _⟩⟩)
  | .strIdx alphabet lo hi k, av, ctx, P, env, hok, hsc, hg, hd, he => by
    simp only [AOk, Scoped] at hok hsc
    obtain ⟨x, hx, hp⟩ := he.get hsc
    simp only [decA, provides, hx, pure_bind]
    exact (SafeQ.ofSafe (decStrIdx_safe hi x hok.2.2.1 hok.2.2.2.1)).map (fun p hp => ⟨hp, fun _ => ⟨he.nil, Grows.refl _⟩⟩)
  | .seq fs, av, ctx, P, env, hok, hsc, hg, hd, he => by
    simp only [AOk, AGuarded, Scoped] at hok hg hsc
    simp only [decA, provides]
    refine (decPresA_safeQ fs).bind (fun bs hb => ?_) (fun _ => ⟨_, by rw [if_neg (by simp)]⟩)
    rw [if_pos rfl]
    exact (decAFields_safe fs av ctx P bs env hok hsc hg (by simpa only [dets] using hd) he hb).map (fun p hp => ⟨hp, fun hq => hq⟩)
  | .seqOf lo hi k t, av, ctx, P, env, hok, hsc, hg, hd, he => by
    simp only [AOk, AGuarded, Scoped] at hok hg hsc
    simp only [decA, provides]
    refine (SafeQ.ofSafe (decCount_safe he hsc.1 hok.1 hok.2.1 hg.1)).bind (fun n _ => ?_) (fun _ => ⟨_, by rw [if_neg (by simp)]⟩)
    rw [if_pos rfl]
    refine (decItemsA_safeQ (P := P) (fun env' he' => ?_) n env [] he.nil).map (fun p hp => ⟨hp, fun hq => hq⟩)
    exact (decA_safe t av [] P env' hok.2.2 hsc.2 hg.2 (by simpa only [dets] using hd) he').mono (fun r hr => ⟨hr.1.nil, hr.2⟩)
  | .choice byDet alts, av, ctx, P, env, hok, hsc, hg, hd, he => by
    simp only [AOk, AGuarded, Scoped] at hok hg hsc
    simp only [decA, provides]
    refine SafeQ.ite (fun hb => ?_) (fun hb => ?_)
    · have hk : ∀ c ∈ alts.conds, ∀ q ∈ c, q.1 ∈ ctx := fun c hc q hq =>
        hsc.1 hb _ ((((hok.2.2.1 hb).1 c hc).2 q.1).1 (List.mem_map_of_mem hq))
      exact decAAltDet_safe alts av ctx P 0 env hok.2.2.2 hk hsc.2 hg (by simpa only [dets] using hd) he
    · refine (SafeQ.ofSafe (decodeConstraintWholeNumber_safe (lo := 0) (hi := (alts.length : Int) - 1) (by omega) (by omega) (by omega) (by omega))).bind
        (fun q _ => ?_) (fun _ => ⟨_, by rw [if_neg (by simp)]⟩)
      rw [if_pos rfl]
      exact (decAAlt_safe alts av ctx P q.toNat env hok.2.2.2 hsc.2 hg (by simpa only [dets] using hd) he).map (fun p hp => ⟨hp, fun hq => hq⟩)
  | .ref args t, av, ctx, P, env, hok, hsc, hg, hd, he => by
    simp only [AOk, AGuarded, Scoped] at hok hg hsc
    obtain ⟨env', h1, h2⟩ := passArgs_total he hsc.1
    simp only [decA, provides, h1, pure_bind]
    have h3 : EnvIn (args.map (·.2)) (mayBe (fun j x => ∃ k, (k, j) ∈ args ∧ P k x) t) env' := ⟨h2.has, fun k x hx => .inl (h2.may k x hx)⟩
    refine (decA_safe t _ _ _ env' hok.2.2 hsc.2 hg (fun k l x hm hx => .inr ⟨l, hm, hx⟩) h3).map (fun p hp => ⟨?_, fun _ => ⟨he.nil, Grows.refl _⟩⟩)
    simp only [Bool.and_eq_true] at hp
    exact hp.1
  | .align a t, av, ctx, P, env, hok, hsc, hg, hd, he => by
    simp only [AOk, AGuarded, Scoped] at hok hg hsc
    simp only [decA, provides]
    rw [hg.1]
    exact (decA_safe t av ctx P env hok hsc hg.2 (by simpa only [dets] using hd) he).align
theorem decAFields_safe : ∀ (fs : AFields) (av ctx : List Nat) (P : Nat → Int → Prop) (bs : List Bool) (env : DetEnv), AOkFields fs → ScopedFields av ctx fs →
    AGuardedFields P fs → (∀ k l x, (k, l) ∈ detsFields fs → DetMay l x → P k x) → EnvIn ctx P env → bs.length = presLen fs →
    SafeQ (decAFields fs bs env) (fun r => EnvIn (providesFields fs) P r.2 ∧ Grows env r.2)
  | .nil, av, ctx, P, bs, env, hok, hsc, hg, hd, he, hb => by
    simp only [decAFields, providesFields]
    exact SafeQ.pure (fun _ => ⟨he.nil, Grows.refl _⟩)
  | .asn1 o t rest, av, ctx, P, bs, env, hok, hsc, hg, hd, he, hb => by
    simp only [AOkFields, AGuardedFields, ScopedFields] at hok hg hsc
    simp only [detsFields, List.mem_append] at hd
    rw [presLen_asn1] at hb
    obtain ⟨e, bs', h1, h2, h3⟩ := presFlag_total he hsc.1 hb
    simp only [decAFields, h1, pure_bind]
    have hfirst : SafeQ (if e = true then decA t env else pure (true, (absentVal o, env)))
        (fun r => EnvIn (if o.always = true then provides t else []) P r.2 ∧ Grows env r.2) := by
      cases e with
      | true =>
        rw [if_pos rfl]
        refine (decA_safe t av ctx P env hok.1 hsc.2.1 hg.1 (fun k l x hm => hd k l x (.inl hm)) he).mono (fun r hr => ⟨?_, hr.2⟩)
        split
        · exact hr.1
        · exact hr.1.nil
      | false =>
        rw [if_neg (by simp)]
        refine SafeQ.pure (fun _ => ⟨?_, Grows.refl _⟩)
        split
        · rename_i ha; cases h3 ha
        · exact he.nil
    refine hfirst.bind (fun p hp => ?_) (fun _ => ⟨_, by rw [if_neg (by simp)]⟩)
    rw [if_pos rfl]
    have he' := he.join hp.1 hp.2
    refine (decAFields_safe rest _ _ P bs' p.2 hok.2 hsc.2.2 hg.2 (fun k l x hm => hd k l x (.inr hm)) he' h2).map (fun q hq => ⟨hq, fun hr => ?_⟩)
    refine ⟨⟨fun k hk => ?_, hr.1.may⟩, hp.2.trans hr.2⟩
    simp only [providesFields, List.mem_append] at hk
    rcases hk with hk | hk
    · obtain ⟨x, hx⟩ := hp.1.has k hk
      exact hr.2 k x hx
    · exact hr.1.has k hk
  | .acn k a l rest, av, ctx, P, bs, env, hok, hsc, hg, hd, he, hb => by
    simp only [AOkFields, AGuardedFields, ScopedFields] at hok hg hsc
    simp only [detsFields, List.mem_cons] at hd
    simp only [presLen] at hb
    simp only [decAFields]
    refine SafeQ.alignOpt hg.2.1 ?_
    refine (decLeaf_safeQ hg.1).bind (fun x hx => ?_) (fun _ => ⟨_, by rw [if_neg (by simp)]⟩)
    rw [if_pos rfl]
    have he' := he.set (hd k l x (.inl rfl) hx)
    refine (decAFields_safe rest _ _ P bs _ hok hsc.2 hg.2.2 (fun k l x hm => hd k l x (.inr hm)) he' hb).mono (fun r hr => ?_)
    refine ⟨⟨fun j hj => ?_, hr.1.may⟩, (Grows.set env k x).trans hr.2⟩
    simp only [providesFields, List.mem_cons] at hj
    rcases hj with rfl | hj
    · exact hr.2 j x (by simp [DetEnv.set])
    · exact hr.1.has j hj
  | .acnNull pat n rest, av, ctx, P, bs, env, hok, hsc, hg, hd, he, hb => by
    simp only [AOkFields, AGuardedFields, ScopedFields] at hok hg hsc
    simp only [detsFields] at hd
    simp only [presLen] at hb
    simp only [decAFields, providesFields]
    refine (SafeQ.ofSafe (readBitPattern_safe hok.1)).bind (fun b _ => ?_) (fun _ => ⟨_, by rw [if_neg (by simp)]⟩)
    refine SafeQ.ite (fun _ => ?_) (fun _ => SafeQ.pure (by simp))
    exact decAFields_safe rest av ctx P bs env hok.2 hsc hg hd he hb
theorem decAAlt_safe : ∀ (alts : AAlts) (av ctx : List Nat) (P : Nat → Int → Prop) (i : Nat) (env : DetEnv), AOkAlts alts → ScopedAlts av ctx alts →
    AGuardedAlts P alts → (∀ k l x, (k, l) ∈ detsAlts alts → DetMay l x → P k x) → EnvIn ctx P env →
    SafeQ (decAAlt alts i env) (fun r => EnvIn [] P r.2 ∧ Grows env r.2)
  | .nil, av, ctx, P, i, env, hok, hsc, hg, hd, he => by
    simp only [decAAlt]
    exact SafeQ.pure (by simp)
  | .cons c t rest, av, ctx, P, 0, env, hok, hsc, hg, hd, he => by
    simp only [AOkAlts, AGuardedAlts, ScopedAlts] at hok hg hsc
    simp only [detsAlts, List.mem_append] at hd
    simp only [decAAlt]
    exact (decA_safe t av ctx P env hok.1 hsc.1 hg.1 (fun k l x hm => hd k l x (.inl hm)) he).mono (fun r hr => ⟨hr.1.nil, hr.2⟩)
  | .cons c t rest, av, ctx, P, i + 1, env, hok, hsc, hg, hd, he => by
    simp only [AOkAlts, AGuardedAlts, ScopedAlts] at hok hg hsc
    simp only [detsAlts, List.mem_append] at hd
    simp only [decAAlt]
    exact decAAlt_safe rest av ctx P i env hok.2 hsc.2 hg.2 (fun k l x hm => hd k l x (.inr hm)) he
theorem decAAltDet_safe : ∀ (alts : AAlts) (av ctx : List Nat) (P : Nat → Int → Prop) (i : Nat) (env : DetEnv), AOkAlts alts → (∀ c ∈ alts.conds, ∀ q ∈ c, q.1 ∈ ctx) →
    ScopedAlts av ctx alts → AGuardedAlts P alts → (∀ k l x, (k, l) ∈ detsAlts alts → DetMay l x → P k x) → EnvIn ctx P env →
    SafeQ (decAAltDet alts i env) (fun r => EnvIn [] P r.2 ∧ Grows env r.2)
  | .nil, av, ctx, P, i, env, hok, hk, hsc, hg, hd, he => by
    simp only [decAAltDet]
    exact SafeQ.pure (by simp)
  | .cons c t rest, av, ctx, P, i, env, hok, hk, hsc, hg, hd, he => by
    simp only [AOkAlts, AGuardedAlts, ScopedAlts] at hok hg hsc
    simp only [detsAlts, List.mem_append] at hd
    obtain ⟨b, hb⟩ := condsHold_total he (c := c) (hk c (by simp [AAlts.conds]))
    simp only [decAAltDet, hb, pure_bind]
    refine SafeQ.ite (fun _ => ?_) (fun _ => ?_)
    · exact (decA_safe t av ctx P env hok.1 hsc.1 hg.1 (fun k l x hm => hd k l x (.inl hm)) he).map (fun p hp => ⟨hp, fun hr => ⟨hr.1.nil, hr.2⟩⟩)
    · refine decAAltDet_safe rest av ctx P (i + 1) env hok.2 (fun d hd => hk d (by simp [AAlts.conds, hd])) hsc.2 hg.2 (fun k l x hm => hd k l x (.inr hm)) he
end

end Asn1
