import Verif.Proof.GenSafe
/-! Generated decoders on encodings and on truncated encodings. -/
namespace Asn1

theorem decPresence_reads : ∀ (fs : Fields) (vs : List (Bool × Val)), ValidFields fs vs →
    Reads (decPresence fs) (true, vs.map Prod.fst) (presenceCode fs vs) ∧ Short (decPresence fs) (presenceCode fs vs)
  | .nil, [], _ => by simp only [decPresence, presenceCode]; exact ⟨Reads.pure _, Short.nil _⟩
  | .nil, _ :: _, h => by simp [ValidFields] at h
  | .cons _ _ _, [], h => by simp [ValidFields] at h
  | .cons o t rest, (e, v) :: vs, h => by
    have step : ValidFields rest vs →
        Reads (do
          let b ← readBit
          if b.1 then do
            let p ← decPresence rest
            pure (p.1, b.2 :: p.2)
          else pure (false, [])) (true, e :: vs.map Prod.fst) (e :: presenceCode rest vs) ∧
        Short (do
          let b ← readBit
          if b.1 then do
            let p ← decPresence rest
            pure (p.1, b.2 :: p.2)
          else pure (false, [])) (e :: presenceCode rest vs) := by
      intro hr
      obtain ⟨r, s⟩ := decPresence_reads rest vs hr
      constructor
      · refine (readBit_reads e).bind (w1 := [e]) ?_
        rw [if_pos rfl]
        exact r.map (h := fun p : Bool × List Bool => (p.1, e :: p.2))
      · refine (readBit_needs.short (w := [e]) rfl).bind (readBit_reads e) ?_ (fun a => ⟨[], by rw [if_neg (by simp)]⟩)
        rw [if_pos rfl]
        exact s.map (h := fun p : Bool × List Bool => (p.1, e :: p.2)) (fun _ h => h)
    cases o <;> simp only [ValidFields] at h <;> simp only [decPresence, presenceCode, List.map_cons]
    · obtain ⟨r, s⟩ := decPresence_reads rest vs h.2
      rw [pure_bind, if_pos rfl, h.1.1]
      exact ⟨r.map (h := fun p : Bool × List Bool => (p.1, true :: p.2)), s.map (h := fun p : Bool × List Bool => (p.1, true :: p.2)) (fun _ h => h)⟩
    all_goals exact step h.2

theorem validFields_len : ∀ (fs : Fields) (vs : List (Bool × Val)), ValidFields fs vs → vs.length = fs.length
  | .nil, [], _ => rfl
  | .nil, _ :: _, h => by simp [ValidFields] at h
  | .cons _ _ _, [], h => by simp [ValidFields] at h
  | .cons o t rest, (e, v) :: vs, h => by
    have : ValidFields rest vs := by cases o <;> simp only [ValidFields] at h <;> exact h.2
    simp only [List.length_cons, Fields.length, validFields_len rest vs this]

/-- The final check refuses it (only in the weak form). -/
def Bad (strict : Bool) (t : Ty) (v : Val) : Prop := strict = false ∧ isValid t v = false
def BadF (strict : Bool) (fs : Fields) (vs : List (Bool × Val)) : Prop := strict = false ∧ validFields fs vs = false
def BadA (strict : Bool) (alts : Alts) (i : Nat) (v : Val) : Prop := strict = false ∧ validAlt alts i v = false

/-- One component of a SEQUENCE. -/
theorem field_step {T : Prop} {f : M (Bool × Val)} {g : M (Bool × List (Bool × Val))} {e : Bool} {v : Val} {vs : List (Bool × Val)}
    {w1 w2 : List Bool} {bad1 : Val → Prop} {bad2 bad : List (Bool × Val) → Prop}
    (r1 : Reads f (true, v) w1) (r2 : Reads g (true, vs) w2) (s1 : T → WShort f bad1 w1) (s2 : T → WShort g bad2 w2)
    (hg : T → ∀ a, bad1 a → Safe g) (hb1 : ∀ a l, bad1 a → bad ((e, a) :: l)) (hb2 : ∀ a l, bad2 l → bad ((e, a) :: l)) :
    Reads (do
      let p ← f
      if p.1 then do
        let q ← g
        pure (q.1, (e, p.2) :: q.2)
      else pure (false, [])) (true, (e, v) :: vs) (w1 ++ w2) ∧
    (T → WShort (do
      let p ← f
      if p.1 then do
        let q ← g
        pure (q.1, (e, p.2) :: q.2)
      else pure (false, [])) bad (w1 ++ w2)) := by
  constructor
  · refine r1.bind ?_
    rw [if_pos rfl]
    exact r2.map (h := fun q : Bool × List (Bool × Val) => (q.1, (e, v) :: q.2))
  · intro t
    refine (s1 t).bind r1 ?_ (fun a ha => ?_) (fun a => ⟨[], by rw [if_neg (by simp)]⟩)
    · rw [if_pos rfl]
      exact (s2 t).map (h := fun q : Bool × List (Bool × Val) => (q.1, (e, v) :: q.2)) (fun _ h => h) (fun l hl => hb2 v l hl)
    · rw [if_pos rfl]
      exact ⟨(hg t a ha).map (h := fun q : Bool × List (Bool × Val) => (q.1, (e, a) :: q.2)) (fun _ h => h),
        Post.bind (fun q => Post.pure (fun _ => hb1 a q.2 ha))⟩

mutual
theorem decTy_reads (strict : Bool) : ∀ (t : Ty) (v : Val), Ok t → Valid t v →
    Reads (decTy t) (true, v) (code false t v) ∧
    (Tight strict t ∧ (strict = false → Guarded t) → WShort (decTy t) (Bad strict t) (code false t v))
  | .int _ _, v, hok, h => by
    cases v <;> simp only [Valid] at h
    simp only [Ok] at hok
    simp only [decTy, code]
    obtain ⟨r, s⟩ := decInt_reads hok h.1 h.2
    exact ⟨r.map (h := fun p : Bool × Int => (p.1, Val.int p.2)),
      fun _ => (s.map (h := fun p : Bool × Int => (p.1, Val.int p.2)) (fun _ h => h)).weak _⟩
  | .intExt _ _ _, v, hok, h => by
    cases v <;> try (simp only [Valid] at h; done)
    simp only [decTy, code]
    obtain ⟨r, s⟩ := decIntExt_reads hok h
    exact ⟨r.map (h := fun p : Bool × Int => (p.1, Val.int p.2)),
      fun _ => (s.map (h := fun p : Bool × Int => (p.1, Val.int p.2)) (fun _ h => h)).weak _⟩
  | .bool, v, _, h => by
    cases v <;> simp only [Valid] at h
    simp only [decTy, code]
    exact ⟨(readBit_reads _).map (h := fun p : Bool × Bool => (p.1, Val.bool p.2)),
      fun _ => ((readBit_needs.short rfl).map (h := fun p : Bool × Bool => (p.1, Val.bool p.2)) (fun _ h => h)).weak _⟩
  | .null, v, _, h => by
    cases v <;> simp only [Valid] at h
    simp only [decTy, code]
    exact ⟨Reads.pure _, fun _ => WShort.nil _ _⟩
  | .enum _ _ _, v, hok, h => by
    cases v <;> simp only [Valid] at h
    simp only [decTy, code]
    obtain ⟨r, s⟩ := decEnum_reads hok h
    exact ⟨r.map (h := fun p : Bool × Int => (p.1, Val.enum p.2)),
      fun _ => (s.map (h := fun p : Bool × Int => (p.1, Val.enum p.2)) (fun _ h => h)).weak _⟩
  | .octets lo hi, v, _, h => by
    cases v <;> simp only [Valid] at h
    simp only [decTy, code]
    obtain ⟨r, s⟩ := decOctets_reads (T := strict = false ∧ 1 ≤ lo ∨ lo = hi ∨ 65536 ≤ hi) h.1 h.2 (by omega)
    refine ⟨r.map (h := fun p : Bool × List Byte => (p.1, Val.octets p.2)), fun t => ?_⟩
    simp only [Tight] at t
    cases strict with
    | false =>
      refine (s (by rcases t.1 with h | h | h; exact .inr (.inl h); exact .inr (.inr h); exact .inl h)).map (h := fun p : Bool × List Byte => (p.1, Val.octets p.2)) (fun _ h => h) (fun l hl => ⟨rfl, ?_⟩)
      simp only [isValid, decide_eq_false_iff_not]; omega
    | true =>
      obtain ⟨_, s'⟩ := decOctets_strict (T := lo = hi ∨ 65536 ≤ hi) h.1 h.2 (fun h => h)
      have := s' (by simpa using t.1)
      exact (this.map (h := fun p : Bool × List Byte => (p.1, Val.octets p.2)) (fun _ h => h)).weak _
  | .bits _ _ _ _, v, _, h => by
    cases v <;> simp only [Valid] at h
    obtain ⟨h1, h2, _, _, w, hw, hp⟩ := h
    simp only [decTy, code]
    subst hw
    rw [packed_take hp]
    obtain ⟨r, s⟩ := decBits_reads hp h1 h2
    exact ⟨r.map (h := fun p : Bool × (Nat × List Byte) => (p.1, Val.bits p.2.1 p.2.2)),
      fun _ => (s.map (h := fun p : Bool × (Nat × List Byte) => (p.1, Val.bits p.2.1 p.2.2)) (fun _ h => h)).weak _⟩
  | .str a lo hi, v, hok, h => by
    cases v <;> simp only [Valid] at h
    simp only [Ok] at hok
    simp only [decTy, code]
    obtain ⟨r, s⟩ := decStr_reads (T := ¬ (lo = hi ∧ 65536 ≤ hi)) hok.2.1 hok.2.2.2 h.1 h.2.1 h.2.2 (fun h => h)
    refine ⟨r.map (h := fun p : Bool × List Byte => (p.1, Val.str p.2)), fun t => ?_⟩
    simp only [Tight] at t
    exact ((s t.1).map (h := fun p : Bool × List Byte => (p.1, Val.str p.2)) (fun _ h => h)).weak _
  | .oid, v, _, h => by
    cases v <;> simp only [Valid] at h
    obtain ⟨a, b, l, ho, ha, hb, hl⟩ := h
    simp only [Oid.holdsComps] at ho
    subst ho
    simp only [decTy, code]
    rw [List.take_left]
    obtain ⟨r, s⟩ := oidDecode_reads ha hb hl
    exact ⟨r.map (h := fun p : Bool × Oid => (p.1, Val.oid p.2)),
      fun _ => (s.map (h := fun p : Bool × Oid => (p.1, Val.oid p.2)) (fun _ h => h)).weak _⟩
  | .relOid, v, _, h => by
    cases v <;> simp only [Valid] at h
    obtain ⟨l, ho, h1, h2⟩ := h
    simp only [Oid.holdsComps] at ho
    subst ho
    simp only [decTy, code]
    rw [List.take_left]
    obtain ⟨r, s⟩ := relOidDecode_reads h2
    exact ⟨r.map (h := fun p : Bool × Oid => (p.1, Val.oid p.2)),
      fun _ => (s.map (h := fun p : Bool × Oid => (p.1, Val.oid p.2)) (fun _ h => h)).weak _⟩
  | .real _, v, _, h => by
    cases v <;> simp only [Valid] at h
    simp only [decTy, code]
    obtain ⟨r, s⟩ := decodeReal_held h.2
    exact ⟨r.map (h := fun p : Bool × Dbl => (p.1, Val.real p.2)),
      fun _ => (s.map (h := fun p : Bool × Dbl => (p.1, Val.real p.2)) (fun _ h => h)).weak _⟩
  | .seq fs, v, hok, h => by
    cases v <;> simp only [Valid] at h
    simp only [Ok] at hok
    simp only [decTy, code, Tight, Guarded]
    rename_i vs
    obtain ⟨r1, s1⟩ := decPresence_reads fs vs h
    obtain ⟨r2, s2⟩ := decFields_reads strict fs vs hok h
    constructor
    · refine r1.bind ?_
      rw [if_pos rfl]
      exact r2.map (h := fun p : Bool × List (Bool × Val) => (p.1, Val.seq p.2))
    · intro t
      refine (s1.weak (fun _ => False)).bind r1 ?_ (fun _ h => h.elim) (fun a => ⟨.seq [], by rw [if_neg (by simp)]⟩)
      rw [if_pos rfl]
      exact (s2 t).map (h := fun p : Bool × List (Bool × Val) => (p.1, Val.seq p.2)) (fun _ h => h)
        (fun l hl => ⟨hl.1, by simp only [isValid]; exact hl.2⟩)
  | .seqOf lo hi t, v, hok, h => by
    cases v <;> simp only [Valid] at h
    simp only [Ok] at hok
    simp only [decTy, code, Tight, Guarded]
    rename_i vs
    obtain ⟨r, s⟩ := sizedDec_reads (T := (¬ (lo = hi ∧ 65536 ≤ hi) ∧ Tight strict t) ∧ (strict = false → ¬ (lo = hi ∧ 65536 ≤ hi) ∧ Guarded t))
      (bad := Bad strict t) (item := decTy t) (c := code false t) (xs := vs)
      (fun t1 a ha => decTy_safe t hok.2 (t1.2 ha.1).2)
      (fun x hx => ⟨(decTy_reads strict t x hok.2 (h.2.2 x hx)).1,
        fun t1 => (decTy_reads strict t x hok.2 (h.2.2 x hx)).2 ⟨t1.1.2, fun e => (t1.2 e).2⟩⟩) h.1 h.2.1 (fun t1 => t1.1.1)
    refine ⟨r.map (h := fun p : Bool × List Val => (p.1, Val.seqOf p.2)), fun t1 => ?_⟩
    refine (s t1).map (h := fun p : Bool × List Val => (p.1, Val.seqOf p.2)) (fun _ h => h) (fun l hl => ?_)
    obtain ⟨x, hx, hs, hb⟩ := hl
    refine ⟨hs, ?_⟩
    simp only [isValid, Bool.and_eq_false_iff]
    right
    rw [List.all_eq_false]
    exact ⟨x, hx, by simp [hb]⟩
  | .choice alts, v, hok, h => by
    cases v <;> simp only [Valid] at h
    simp only [Ok] at hok
    simp only [decTy, code, Tight, Guarded]
    rename_i i v
    have hi := validAlt_lt alts i v h
    obtain ⟨r1, s1⟩ := decodeConstraintWholeNumber_reads (v := (i : Int)) (lo := 0) (hi := (alts.length : Int) - 1) (by omega) (by omega)
      (by omega) (by omega) (by omega)
    obtain ⟨r2, s2⟩ := decAlt_reads strict alts i v hok.2.2 h
    constructor
    · refine r1.bind ?_
      rw [if_pos rfl]
      exact r2.map (h := fun p : Bool × Val => (p.1, Val.choice i p.2))
    · intro t
      refine (s1.weak (fun _ => False)).bind r1 ?_ (fun _ h => h.elim) (fun a => ⟨.choice 0 .null, by rw [if_neg (by simp)]⟩)
      rw [if_pos rfl]
      exact (s2 t).map (h := fun p : Bool × Val => (p.1, Val.choice i p.2)) (fun _ h => h)
        (fun l hl => ⟨hl.1, by simp only [isValid]; exact hl.2⟩)
  | .ref t, v, hok, h => by
    simp only [Valid] at h
    simp only [Ok] at hok
    simp only [decTy, code, Tight, Guarded]
    obtain ⟨r, s⟩ := decTy_reads strict t v hok h
    have hv := valid_isValid t v h
    constructor
    · have := r.map (h := fun p : Bool × Val => (p.1 && isValid t p.2, p.2))
      simp only [hv, Bool.and_self] at this
      exact this
    · intro t1
      exact (s t1).map (h := fun p : Bool × Val => (p.1 && isValid t p.2, p.2)) (fun p h => by simp at h; exact h.1)
        (fun a ha => ⟨ha.1, by simp only [isValid]; exact ha.2⟩)
theorem decFields_reads (strict : Bool) : ∀ (fs : Fields) (vs : List (Bool × Val)), OkFields fs → ValidFields fs vs →
    Reads (decFields fs (vs.map Prod.fst)) (true, vs) (fieldsCode false fs vs) ∧
    (TightFields strict fs ∧ (strict = false → GuardedFields fs) →
      WShort (decFields fs (vs.map Prod.fst)) (BadF strict fs) (fieldsCode false fs vs))
  | .nil, [], _, _ => by simp only [decFields, fieldsCode]; exact ⟨Reads.pure _, fun _ => WShort.nil _ _⟩
  | .nil, _ :: _, _, h => by simp [ValidFields] at h
  | .cons _ _ _, [], _, h => by simp [ValidFields] at h
  | .cons o t rest, (e, v) :: vs, hok, h => by
    simp only [OkFields] at hok
    have hrest : ValidFields rest vs := by cases o <;> simp only [ValidFields] at h <;> exact h.2
    obtain ⟨r2, s2⟩ := decFields_reads strict rest vs hok.2 hrest
    simp only [List.map_cons, decFields, fieldsCode, TightFields, GuardedFields]
    have hb2 : ∀ a l, BadF strict rest l → BadF strict (.cons o t rest) ((e, a) :: l) := fun a l hl =>
      ⟨hl.1, by simp only [validFields, hl.2, Bool.and_false]⟩
    cases e with
    | true =>
      simp only [if_pos]
      have hv : Valid t v := by
        cases o <;> simp only [ValidFields] at h
        · exact h.1.2
        · simpa using h.1
        · simpa using h.1
        · simp at h
        · exact h.1.2
      obtain ⟨r1, s1⟩ := decTy_reads strict t v hok.1 hv
      refine field_step (bad1 := Bad strict t) (bad2 := BadF strict rest) r1 r2 (fun t => s1 ⟨t.1.1, fun e => (t.2 e).1⟩)
        (fun t => s2 ⟨t.1.2, fun e => (t.2 e).2⟩) (fun t a ha => ?_) (fun a l ha => ⟨ha.1, ?_⟩) hb2
      · exact decFields_safe rest _ (by rw [List.length_map]; exact validFields_len rest vs hrest) hok.2 (t.2 ha.1).2
      · have := ha.2
        cases o <;> simp [validFields, this]
    | false =>
      simp only [Bool.false_eq_true, if_false]
      have key := field_step (e := false) (v := v) (bad1 := fun _ => False) (bad2 := BadF strict rest)
        (bad := BadF strict (.cons o t rest)) (Reads.pure (true, v)) r2
        (fun _ => WShort.nil _ _) (fun (t : (Tight strict t ∧ TightFields strict rest) ∧ (strict = false → Guarded t ∧ GuardedFields rest)) =>
          s2 ⟨t.1.2, fun e => (t.2 e).2⟩) (fun _ _ h => h.elim) (fun _ _ h => h.elim) hb2
      cases o <;> simp only [ValidFields] at h
      · simp at h
      · have e := h.1
        simp only [Bool.false_eq_true, false_and, false_or, true_and] at e
        rw [e] at key ⊢
        exact key
      · have e := h.1
        simp only [Bool.false_eq_true, false_and, false_or, true_and] at e
        rw [e] at key ⊢
        exact key
      · rw [h.1.2] at key ⊢
        exact key
      · simp at h
theorem decAlt_reads (strict : Bool) : ∀ (alts : Alts) (i : Nat) (v : Val), OkAlts alts → ValidAlt alts i v →
    Reads (decAlt alts i) (true, v) (altCode false alts i v) ∧
    (TightAlts strict alts ∧ (strict = false → GuardedAlts alts) → WShort (decAlt alts i) (BadA strict alts i) (altCode false alts i v))
  | .nil, _, _, _, h => by simp [ValidAlt] at h
  | .cons t _, 0, v, hok, h => by
    simp only [ValidAlt] at h
    simp only [OkAlts] at hok
    simp only [decAlt, altCode, TightAlts, GuardedAlts]
    obtain ⟨r, s⟩ := decTy_reads strict t v hok.1 h
    exact ⟨r, fun t => (s ⟨t.1.1, fun e => (t.2 e).1⟩).mono (fun a ha => ⟨ha.1, by simp only [validAlt]; exact ha.2⟩)⟩
  | .cons _ rest, i + 1, v, hok, h => by
    simp only [ValidAlt] at h
    simp only [OkAlts] at hok
    simp only [decAlt, altCode, TightAlts, GuardedAlts]
    obtain ⟨r, s⟩ := decAlt_reads strict rest i v hok.2 h
    exact ⟨r, fun t => (s ⟨t.1.2, fun e => (t.2 e).2⟩).mono (fun a ha => ⟨ha.1, by simp only [validAlt]; exact ha.2⟩)⟩
end

/-! ### the function the user calls -/

theorem decodeType_reads {t : Ty} {v : Val} (hok : Ok t) (hv : Valid t v) : Reads (decodeType t) (true, v) (code false t v) := by
  have := (decTy_reads true (.ref t) v (by simp only [Ok]; exact hok) (by simp only [Valid]; exact hv)).1
  simp only [code] at this
  exact this

theorem decodeType_short {t : Ty} {v : Val} (hok : Ok t) (hv : Valid t v) (ht : Tight true t ∨ (Tight false t ∧ Guarded t)) :
    Short (decodeType t) (code false t v) := by
  rcases ht with ht | ⟨ht, hg⟩
  · obtain ⟨_, s⟩ := decTy_reads true (.ref t) v (by simp only [Ok]; exact hok) (by simp only [Valid]; exact hv)
    simp only [code, Tight] at s
    exact (s ⟨ht, fun h => by cases h⟩).strong (fun a h => by have := h.1; cases this)
  · obtain ⟨_, s⟩ := decTy_reads false t v hok hv
    have := (s ⟨ht, fun _ => hg⟩).map (h := fun p : Bool × Val => (p.1 && isValid t p.2, p.2)) (bad' := fun a => isValid t a = false)
      (fun p h => by simp at h; exact h.1) (fun a ha => ha.2)
    have e : decodeType t = (do
      let p ← decTy t
      pure (p.1 && isValid t p.2, p.2)) := by simp only [decodeType, decTy]
    rw [e]
    intro st rest hs hsl hp hne
    obtain ⟨⟨b, a⟩, s', h1, h2, h3, h4⟩ := this st rest hs hsl hp hne
    cases b with
    | false => exact ⟨a, s', h1, h2, h3⟩
    | true =>
      exfalso
      have hbad := (h4 rfl).1
      rw [bind_def] at h1
      split at h1
      · simp only [pure_run, Res.ok.injEq, Prod.mk.injEq] at h1
        have e1 := h1.1.1
        rw [h1.1.2] at e1
        simp only at hbad
        rw [hbad] at e1
        simp at e1
      · cases h1
      · cases h1

theorem decodeType_safe {t : Ty} (hok : Ok t) (hg : Guarded t) : Safe (decodeType t) :=
  decTy_safe (.ref t) (by simp only [Ok]; exact hok) (by simp only [Guarded]; exact hg)

/-- What the decoder accepts has passed the check. -/
theorem decodeType_post (t : Ty) : Post (decodeType t) (fun v => isValid t v = true) := by
  unfold decodeType
  simp only [decTy]
  refine Post.bind (fun p => ?_)
  refine Post.pure (fun h => ?_)
  simp at h
  exact h.2

end Asn1
