import Verif.Proof.AcnGenEnc
import Verif.Proof.GenDec
/-! The generated ACN decoders read what the specification says, and refuse proper prefixes of it. -/
namespace Asn1

/-- `f` reads the bits `w` of the position it starts at, with a result that satisfies `Q`; if `T` it fails on every proper prefix. -/
def DecP {α : Type} (T : Prop) (f : M (Bool × α)) (Q : α → Prop) (w : Nat → List Bool) : Prop :=
  (∀ s rest, DecSt s (w s.pos ++ rest) → ∃ a s', f s = .ok ((true, a), s') ∧ Q a ∧ DecSt s' rest ∧ s'.buf = s.buf ∧ s'.count = s.count) ∧
  (T → ∀ s rest, DecSt s rest → Slack s → rest <+: w s.pos → rest ≠ w s.pos →
    ∃ a s', f s = .ok ((false, a), s') ∧ s'.buf = s.buf ∧ s'.count = s.count)

theorem DecP.congr {α : Type} {T : Prop} {f : M (Bool × α)} {Q : α → Prop} {w w' : Nat → List Bool} (h : DecP T f Q w) (e : ∀ p, w p = w' p) :
    DecP T f Q w' := by rw [← funext e]; exact h

theorem DecP.post {α : Type} {T : Prop} {f : M (Bool × α)} {Q Q' : α → Prop} {w : Nat → List Bool} (h : DecP T f Q w) (e : ∀ a, Q a → Q' a) :
    DecP T f Q' w := by
  refine ⟨fun s rest hs => ?_, h.2⟩
  obtain ⟨a, s', h1, h2, h3⟩ := h.1 s rest hs
  exact ⟨a, s', h1, e a h2, h3⟩

theorem DecP.pure {α : Type} {T : Prop} {Q : α → Prop} {a : α} (h : Q a) : DecP T (Pure.pure (true, a)) Q (fun _ => []) := by
  refine ⟨fun s rest hs => ⟨a, s, rfl, h, hs, rfl, rfl⟩, fun _ s rest _ _ hp hne => ?_⟩
  exact absurd (List.prefix_nil.mp hp) hne

theorem DecP.of {α β : Type} {T : Prop} {f : M (Bool × α)} {a : α} {w : List Bool} {h : α → β} {Q : β → Prop} (r : Reads f (true, a) w)
    (sh : T → Short f w) (hq : Q (h a)) : DecP T (do let p ← f; Pure.pure (p.1, h p.2)) Q (fun _ => w) := by
  refine ⟨fun s rest hs => ?_, fun hT s rest hs hsl hp hne => ?_⟩
  · obtain ⟨s', h1, h2, h3, h4⟩ := r s rest hs
    exact ⟨h a, s', by rw [bind_ok h1]; rfl, hq, h2, h3, h4⟩
  · obtain ⟨b, s', h1, h2, h3⟩ := sh hT s rest hs hsl hp hne
    exact ⟨h b, s', by rw [bind_ok h1]; rfl, h2, h3⟩

theorem DecP.of' {α : Type} {T : Prop} {f : M (Bool × α)} {a : α} {w : List Bool} {Q : α → Prop} (r : Reads f (true, a) w)
    (sh : T → Short f w) (hq : Q a) : DecP T f Q (fun _ => w) := by
  refine ⟨fun s rest hs => ?_, fun hT s rest hs hsl hp hne => sh hT s rest hs hsl hp hne⟩
  obtain ⟨s', h1, h2, h3, h4⟩ := r s rest hs
  exact ⟨a, s', h1, hq, h2, h3, h4⟩

theorem DecP.map {α β : Type} {T : Prop} {f : M (Bool × α)} {w : Nat → List Bool} {h : α → β} {Q : α → Prop} {Q' : β → Prop} (d : DecP T f Q w)
    (hq : ∀ a, Q a → Q' (h a)) : DecP T (do let p ← f; Pure.pure (p.1, h p.2)) Q' w := by
  refine ⟨fun s rest hs => ?_, fun hT s rest hs hsl hp hne => ?_⟩
  · obtain ⟨a, s', h1, h2, h3⟩ := d.1 s rest hs
    exact ⟨h a, s', by rw [bind_ok h1]; rfl, hq a h2, h3⟩
  · obtain ⟨b, s', h1, h2⟩ := d.2 hT s rest hs hsl hp hne
    exact ⟨h b, s', by rw [bind_ok h1]; rfl, h2⟩

theorem DecP.mapAnd {α β : Type} {T : Prop} {f : M (Bool × α)} {w : Nat → List Bool} {c : α → Bool} {h : α → β} {Q : α → Prop} {Q' : β → Prop}
    (d : DecP T f Q w) (hq : ∀ a, Q a → c a = true ∧ Q' (h a)) : DecP T (do let p ← f; Pure.pure (p.1 && c p.2, h p.2)) Q' w := by
  refine ⟨fun s rest hs => ?_, fun hT s rest hs hsl hp hne => ?_⟩
  · obtain ⟨a, s', h1, h2, h3⟩ := d.1 s rest hs
    exact ⟨h a, s', by rw [bind_ok h1, (hq a h2).1]; rfl, (hq a h2).2, h3⟩
  · obtain ⟨b, s', h1, h2⟩ := d.2 hT s rest hs hsl hp hne
    exact ⟨h b, s', by rw [bind_ok h1]; rfl, h2⟩

theorem DecP.bind {α β : Type} {T : Prop} {f : M (Bool × α)} {g : α → M (Bool × β)} {z : Bool × α → β} {w1 w2 : Nat → List Bool} {Q : α → Prop}
    {Q' : β → Prop} (d : DecP T f Q w1) (e : ∀ a, Q a → DecP T (g a) Q' w2) :
    DecP T (do let p ← f; if p.1 then g p.2 else Pure.pure (false, z p)) Q' (followedBy w1 w2) := by
  refine ⟨fun s rest hs => ?_, fun hT s rest hs hsl hp hne => ?_⟩
  · simp only [followedBy, List.append_assoc] at hs
    obtain ⟨a, s1, h1, h2, h3, h4, h5⟩ := d.1 s _ hs
    have e1 := hs.pos
    have e2 := h3.pos
    rw [h5] at e2
    rw [List.length_append] at e1
    rw [show s.pos + (w1 s.pos).length = s1.pos by omega] at h3
    obtain ⟨b, s2, k1, k2, k3, k4, k5⟩ := (e a h2).1 s1 rest h3
    exact ⟨b, s2, by rw [bind_ok h1]; exact k1, k2, k3, k4.trans h4, k5.trans h5⟩
  · simp only [followedBy] at hp hne
    by_cases hlen : (w1 s.pos).length ≤ rest.length
    · obtain ⟨t, ht⟩ : ∃ t, rest = w1 s.pos ++ t := by
        obtain ⟨u, hu⟩ := List.prefix_of_prefix_length_le (List.prefix_append _ _) hp hlen
        exact ⟨u, hu.symm⟩
      obtain ⟨a, s1, h1, h2, h3, h4, h5⟩ := d.1 s t (by rw [← ht]; exact hs)
      have e1 := hs.pos
      have e2 := h3.pos
      rw [h5] at e2
      rw [ht, List.length_append] at e1
      rw [show s.pos + (w1 s.pos).length = s1.pos by omega, ht] at hp hne
      obtain ⟨b, s2, k1, k2, k3⟩ := (e a h2).2 hT s1 t h3 (by unfold Slack at *; rw [h4, h5]; exact hsl) ((List.prefix_append_right_inj _).mp hp) (by
        intro hn
        rw [hn] at hne
        exact hne rfl)
      exact ⟨b, s2, by rw [bind_ok h1]; exact k1, k2.trans h4, k3.trans h5⟩
    · obtain ⟨b, s', h1, h2⟩ := d.2 hT s rest hs hsl
        (List.prefix_of_prefix_length_le hp (List.prefix_append _ _) (by omega)) (by intro e; rw [e] at hlen; exact hlen (Nat.le_refl _))
      exact ⟨z (false, b), s', by rw [bind_ok h1]; rfl, h2⟩

theorem atPos_decSt {s : BitStream} {n : Nat} {w rest : List Bool} (hs : DecSt s (w ++ rest)) (hw : w.length = n) : DecSt (atPos s (s.pos + n)) rest := by
  have hp := hs.pos
  rw [List.length_append] at hp
  refine ⟨⟨?_, hs.wf.cap⟩, ?_, ?_⟩
  · simp only [atPos]; omega
  · rw [atPos_pos]
    show _ = 8 * s.count
    omega
  · intro i hi
    rw [atPos_pos]
    show bitAt s.buf _ = _
    rw [show s.pos + n + i = s.pos + (n + i) by omega, hs.bits (n + i) (by rw [List.length_append]; omega),
      List.getElem?_append_right (by omega), show n + i - w.length = i by omega]

theorem DecP.align {α : Type} {T : Prop} (a : Align) {f : M (Bool × α)} {Q : α → Prop} {w : Nat → List Bool} (hT : T → a = .byte) (h : DecP T f Q w) :
    DecP T (do alignTo a; f) Q (followedBy (padTo a.size) w) := by
  have hu := fun p => alignUp_pad a p
  refine ⟨fun s rest hs => ?_, fun hT' s rest hs hsl hp hne => ?_⟩
  · simp only [followedBy, List.append_assoc] at hs
    have hpos := hs.pos
    rw [List.length_append] at hpos
    have a1 := alignTo_run a hs.wf.bit (by rw [hu]; omega)
    have a2 := atPos_decSt hs rfl
    rw [← hu] at a2
    have a3 : (atPos s (alignUp a.size s.pos)).pos = alignUp a.size s.pos := atPos_pos _ _
    obtain ⟨b, s2, k1, k2, k3, k4, k5⟩ := h.1 _ rest (by rw [a3]; exact a2)
    exact ⟨b, s2, by rw [bind_ok a1]; exact k1, k2, k3, k4, k5⟩
  · simp only [followedBy] at hp hne
    have hb := hT hT'
    have hpos := hs.pos
    have hl : (padTo a.size s.pos).length ≤ rest.length := by
      rw [hb]
      simp only [padTo, Align.size, List.length_replicate]
      omega
    obtain ⟨t, ht⟩ : ∃ t, rest = padTo a.size s.pos ++ t := by
      obtain ⟨u, hu⟩ := List.prefix_of_prefix_length_le (List.prefix_append _ _) hp hl
      exact ⟨u, hu.symm⟩
    rw [ht] at hp hne hs
    rw [ht, List.length_append] at hpos
    have a1 := alignTo_run a hs.wf.bit (by rw [hu]; omega)
    have a2 := atPos_decSt hs rfl
    rw [← hu] at a2 hp hne
    have a3 : (atPos s (alignUp a.size s.pos)).pos = alignUp a.size s.pos := atPos_pos _ _
    obtain ⟨b, s2, k1, k2⟩ := h.2 hT' _ t a2 hsl (by rw [a3]; exact (List.prefix_append_right_inj _).mp hp)
      (by rw [a3]; intro e; rw [e] at hne; exact hne rfl)
    exact ⟨b, s2, by rw [bind_ok a1]; exact k1, k2⟩

theorem DecP.alignOpt {α : Type} {T : Prop} (a : Option Align) {f : M (Bool × α)} {Q : α → Prop} {w : Nat → List Bool}
    (hT : T → ∀ b, a = some b → b = .byte) (h : DecP T f Q w) : DecP T (do alignOpt a; f) Q (followedBy (padOpt a) w) := by
  cases a with
  | none =>
    refine DecP.congr (w := w) ?_ (fun p => by simp [followedBy, padOpt])
    simp only [Asn1.alignOpt, pure_bind]; exact h
  | some a => exact DecP.align a (fun t => hT t a rfl) h

/-! ### Valid values pass the check -/

theorem str_check {alphabet : List Byte} {lo hi : Nat} {chars : List Byte} (h : StrValid alphabet lo hi chars) :
    (decide (lo ≤ chars.length ∧ chars.length ≤ hi) && chars.all alphabet.contains) = true := by
  rw [Bool.and_eq_true, decide_eq_true_eq, List.all_eq_true]
  exact ⟨⟨h.1, h.2.1⟩, fun c hc => List.contains_iff_mem.mpr (h.2.2 c hc).1⟩

mutual
theorem aValid_valid : ∀ (t : ATy) (rq : List (Nat × Int)) (v : Val), AValid t rq v → validA t v = true
  | .prim t, rq, v, h => by simp only [AValid] at h; simp only [validA]; exact valid_isValid t v h
  | .leaf l, rq, v, h => by
    simp only [AValid] at h
    cases l <;> cases v <;> simp only [LeafValid] at h <;> simp only [validA, validLeaf]
    · exact rng_holds h.1
    · exact List.contains_iff_mem.mpr h.1
  | .nullPat _ _, rq, v, h => by cases v <;> simp only [AValid] at h; simp only [validA]
  | .real64 _ _, rq, v, h => by cases v <;> simp only [AValid] at h; simp only [validA]; exact h
  | .real32 _ _, rq, v, h => by cases v <;> simp only [AValid] at h; simp only [validA]; exact h.1
  | .octets _ _ _ _, rq, v, h => by cases v <;> simp only [AValid] at h; simp only [validA]; exact decide_eq_true h
  | .bits _ _ _ _, rq, v, h => by cases v <;> simp only [AValid] at h; simp only [validA]; exact decide_eq_true ⟨h.1, h.2.1⟩
  | .strAscii _ _ _, rq, v, h => by cases v <;> simp only [AValid] at h; simp only [validA]; exact str_check h
  | .strNull _ _ _ _, rq, v, h => by cases v <;> simp only [AValid] at h; simp only [validA]; exact str_check h.1
  | .strExt _ _ _ _, rq, v, h => by cases v <;> simp only [AValid] at h; simp only [validA]; exact str_check h
  | .strIdx _ _ _ _, rq, v, h => by cases v <;> simp only [AValid] at h; simp only [validA]; exact str_check h
  | .seq fs, rq, v, h => by cases v <;> simp only [AValid] at h; simp only [validA]; exact aValid_validFields fs rq _ h
  | .seqOf lo hi k t, rq, v, h => by
    cases v <;> simp only [AValid] at h
    simp only [validA, Bool.and_eq_true, decide_eq_true_eq, List.all_eq_true]
    exact ⟨⟨h.1, h.2.1⟩, fun v hv => aValid_valid t _ v (h.2.2 v hv)⟩
  | .choice _ alts, rq, v, h => by cases v <;> simp only [AValid] at h; simp only [validA]; exact aValid_validAlt alts _ rq _ h
  | .ref _ t, rq, v, h => by simp only [AValid] at h; simp only [validA]; exact aValid_valid t _ v h
  | .align _ t, rq, v, h => by simp only [AValid] at h; simp only [validA]; exact aValid_valid t _ v h
theorem aValid_validFields : ∀ (fs : AFields) (rq : List (Nat × Int)) (vs : List (Bool × Val)), AValidFields fs rq vs → validAFields fs vs = true
  | .nil, rq, [], _ => by simp only [validAFields]
  | .nil, rq, _ :: _, h => by simp [AValidFields] at h
  | .asn1 o t rest, rq, [], h => by cases o <;> simp [AValidFields] at h
  | .asn1 o t rest, rq, (e, v) :: vs, h => by
    have ih := aValid_validFields rest rq vs
    have iv := aValid_valid t rq v
    cases o with
    | mandatory =>
      simp only [AValidFields] at h
      simp only [validAFields, iv h.1.2, ih h.2, Bool.and_self]
    | optional p d =>
      have h' : (e = true → AValid t rq v) ∧ AValidFields rest rq vs := by
        cases d <;> simp only [AValidFields] at h <;> refine ⟨fun he => ?_, h.2⟩ <;> rcases h.1 with h' | h' <;>
          first | exact h'.2 | (rw [he] at h'; simp at h')
      simp only [validAFields, ih h'.2, Bool.and_true]
      cases e
      · rfl
      · rw [iv (h'.1 rfl)]; rfl
    | absent =>
      simp only [AValidFields] at h
      simp only [validAFields, ih h.2, Bool.and_true, h.1.1, Bool.not_false]
    | present =>
      simp only [AValidFields] at h
      simp only [validAFields, iv h.1.2, ih h.2, h.1.1, Bool.and_self]
  | .acn _ _ _ rest, rq, vs, h => by
    simp only [AValidFields] at h; simp only [validAFields]; exact aValid_validFields rest rq vs h.2
  | .acnNull _ _ rest, rq, vs, h => by
    simp only [AValidFields] at h; simp only [validAFields]; exact aValid_validFields rest rq vs h
theorem aValid_validAlt : ∀ (alts : AAlts) (i : Nat) (rq : List (Nat × Int)) (v : Val), AValidAlt alts i rq v → validAAlt alts i v = true
  | .nil, _, _, _, h => by simp [AValidAlt] at h
  | .cons _ t _, 0, rq, v, h => by simp only [AValidAlt] at h; simp only [validAAlt]; exact aValid_valid t rq v h
  | .cons _ _ rest, i + 1, rq, v, h => by simp only [AValidAlt] at h; simp only [validAAlt]; exact aValid_validAlt rest i rq v h
end

/-! ### The variables of the decoder -/

/-- The determinants in `ctx` are decoded, with the values that are required. -/
def EnvOk (ctx : List Nat) (rq : List (Nat × Int)) (env : DetEnv) : Prop := ∀ k ∈ ctx, ∃ x, env k = some x ∧ ∀ y, (k, y) ∈ rq → x = y

theorem EnvOk.get {ctx : List Nat} {rq : List (Nat × Int)} {env : DetEnv} (h : EnvOk ctx rq env) {k : Nat} {x : Int} (hk : k ∈ ctx) (hx : (k, x) ∈ rq) :
    envGet env k = pure x := by
  obtain ⟨y, h1, h2⟩ := h k hk
  simp only [envGet, h1, h2 x hx]

theorem EnvOk.get' {ctx : List Nat} {rq : List (Nat × Int)} {env : DetEnv} (h : EnvOk ctx rq env) {k : Nat} (hk : k ∈ ctx) :
    ∃ x, env k = some x ∧ envGet env k = pure x ∧ ∀ y, (k, y) ∈ rq → x = y := by
  obtain ⟨y, h1, h2⟩ := h k hk
  exact ⟨y, h1, by simp only [envGet, h1], h2⟩

theorem condsHold_true {env : DetEnv} : ∀ {c : List (Nat × Int)}, (∀ q ∈ c, env q.1 = some q.2) → condsHold env c = pure true
  | [], _ => rfl
  | (k, x) :: c, h => by
    simp only [condsHold, envGet, h (k, x) (by simp), pure_bind, if_true]
    exact condsHold_true (fun q hq => h q (by simp [hq]))

theorem condsHold_false {env : DetEnv} : ∀ {c : List (Nat × Int)}, (∀ q ∈ c, ∃ x, env q.1 = some x) → (∃ q ∈ c, env q.1 ≠ some q.2) →
    condsHold env c = pure false
  | [], _, h => by simp at h
  | (k, x) :: c, h, hm => by
    obtain ⟨y, hy⟩ := h (k, x) (by simp)
    simp only at hy
    simp only [condsHold, envGet, hy, pure_bind]
    by_cases e : y = x
    · rw [if_pos e]
      refine condsHold_false (fun q hq => h q (by simp [hq])) ?_
      obtain ⟨q, hq, hne⟩ := hm
      rcases List.mem_cons.mp hq with rfl | hq
      · exact absurd (by rw [hy, e]) hne
      · exact ⟨q, hq, hne⟩
    · rw [if_neg e]

theorem passArgs_ok {ctx : List Nat} {rq : List (Nat × Int)} {env : DetEnv} (he : EnvOk ctx rq env) : ∀ {args : List (Nat × Nat)}, (∀ a ∈ args, a.1 ∈ ctx) →
    (args.map (·.2)).Nodup → ∃ env', passArgs env args = pure env' ∧ ∀ a ∈ args, env' a.2 = env a.1
  | [], _, _ => ⟨_, rfl, by simp⟩
  | (k, j) :: args, hc, hn => by
    rw [List.map_cons, List.nodup_cons] at hn
    obtain ⟨env', h1, h2⟩ := passArgs_ok he (args := args) (fun a ha => hc a (by simp [ha])) hn.2
    obtain ⟨x, hx, hg, _⟩ := he.get' (hc (k, j) (by simp))
    refine ⟨env'.set j x, by simp only [passArgs, hg, h1, pure_bind], ?_⟩
    intro a ha
    rcases List.mem_cons.mp ha with rfl | ha
    · simp only [DetEnv.set, if_true, hx]
    · have : a.2 ≠ j := fun e => hn.1 (List.mem_map.mpr ⟨a, ha, e⟩)
      simp only [DetEnv.set, if_neg this]
      exact h2 a ha

theorem decPresA_reads : ∀ (fs : AFields) (rq : List (Nat × Int)) (vs : List (Bool × Val)), AValidFields fs rq vs →
    Reads (decPresA fs) (true, presACode fs vs) (presACode fs vs) ∧ Short (decPresA fs) (presACode fs vs)
  | .nil, rq, [], _ => by
    simp only [decPresA, presACode]; exact ⟨Reads.pure _, Short.nil _⟩
  | .nil, rq, _ :: _, h => by simp [AValidFields] at h
  | .asn1 o t rest, rq, [], h => by cases o <;> simp [AValidFields] at h
  | .asn1 o t rest, rq, (e, v) :: vs, h => by
    have hr : AValidFields rest rq vs := by
      cases o with
      | optional p d => cases d <;> (simp only [AValidFields] at h; exact h.2)
      | _ => simp only [AValidFields] at h; exact h.2
    have ih := decPresA_reads rest rq vs hr
    cases o with
    | optional p d =>
      cases p with
      | bit =>
        simp only [decPresA, presACode]
        have hm : Reads (do let p ← decPresA rest; pure (p.1, e :: p.2)) (true, e :: presACode rest vs) (presACode rest vs) :=
          ih.1.map (h := fun p : Bool × List Bool => (p.1, e :: p.2))
        have a := (readBit_reads e).bind (g := fun b : Bool × Bool => if b.1 then (do let p ← decPresA rest; pure (p.1, b.2 :: p.2)) else pure (false, []))
          (by simpa using hm)
        refine ⟨a, ?_⟩
        exact Short.bind (f := readBit) (w1 := [e]) (a := e) (w2 := presACode rest vs)
          (k := fun b : Bool × Bool => if b.1 then (do let p ← decPresA rest; pure (p.1, b.2 :: p.2)) else pure (false, []))
          (readBit_needs.short (by simp)) (readBit_reads e) (by simpa using ih.2.map (h := fun p : Bool × List Bool => (p.1, e :: p.2)) (fun p hp => hp))
          (fun a => ⟨[], by rw [if_neg (by simp)]⟩)
      | whenBool k => simp only [decPresA, presACode]; exact ih
    | mandatory => simp only [decPresA, presACode]; exact ih
    | absent => simp only [decPresA, presACode]; exact ih
    | present => simp only [decPresA, presACode]; exact ih
  | .acn _ _ _ rest, rq, vs, h => by
    simp only [AValidFields] at h
    simp only [decPresA, presACode]; exact decPresA_reads rest rq vs h.2
  | .acnNull _ _ rest, rq, vs, h => by
    simp only [AValidFields] at h
    simp only [decPresA, presACode]; exact decPresA_reads rest rq vs h

end Asn1
