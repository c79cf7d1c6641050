import Verif.Proof.ParamSub
/-
The removal of parameterized types keeps the values of every type: the copies that it makes are
substitutions of the actual parameters, and substitution keeps the values.
-/
namespace Asn1

/-! ## Substitution as a relation -/

/-- `t'` is `t` with the actual parameters `A` put in and every instance replaced by its body. -/
inductive Inst (r : PProg) : PNames → PTy → PTy → Prop
  | base {A b cs cs'} (hc : subCons A cs = some cs') :
      Inst r A (.mk (.base b) cs) (.mk (.base b) cs')
  | seq {A ch ch' cs cs'} (hc : subCons A cs = some cs')
      (hn : ch'.map PChild.name = ch.map PChild.name)
      (ht : ∀ (i : Nat) c c', ch[i]? = some c → ch'[i]? = some c' → Inst r A c.ty c'.ty)
      (ho : ∀ (i : Nat) c c', ch[i]? = some c → ch'[i]? = some c' →
        cloneOpt A c.opt = some c'.opt) :
      Inst r A (.mk (.seq ch) cs) (.mk (.seq ch') cs')
  | choice {A ch ch' cs cs'} (hc : subCons A cs = some cs')
      (hn : ch'.map PChild.name = ch.map PChild.name)
      (ht : ∀ (i : Nat) c c', ch[i]? = some c → ch'[i]? = some c' → Inst r A c.ty c'.ty)
      (ho : ∀ (i : Nat) c c', ch[i]? = some c → ch'[i]? = some c' →
        cloneOpt A c.opt = some c'.opt) :
      Inst r A (.mk (.choice ch) cs) (.mk (.choice ch') cs')
  | seqOf {A t t' cs cs'} (hc : subCons A cs = some cs') (ht : Inst r A t t') :
      Inst r A (.mk (.seqOf t) cs) (.mk (.seqOf t') cs')
  | plain {A md ts cs cs'} (hc : subCons A cs = some cs') (hl : A.lookup ts = none) :
      Inst r A (.mk (.ref md ts []) cs) (.mk (.ref md ts []) cs')
  | param {A md ts cs cs' x} (hc : subCons A cs = some cs') (hl : A.lookup ts = some (.type x)) :
      Inst r A (.mk (.ref md ts []) cs) (.mk x.kind (x.cons ++ cs'))
  | inst {A md ts args cs cs' tas as A' t} (hc : subCons A cs = some cs') (h0 : args ≠ [])
      (hf : r.find md ts = some tas) (hlen : as.length = args.length)
      (hv : ∀ (i : Nat) v b, args[i]? = some (.val v) → as[i]? = some b →
        ∃ v', b = .val v' ∧ cloneVal A v = some v')
      (hty : ∀ (i : Nat) s b, args[i]? = some (.type s) → as[i]? = some b → ∃ x, b = .type x)
      (ht : ∀ (i : Nat) s x, args[i]? = some (.type s) → as[i]? = some (.type x) → Inst r A s x)
      (hA : nameArgs tas.params as = some A') (hb : Inst r A' tas.body t) :
      Inst r A (.mk (.ref md ts args) cs) (.mk t.kind (t.cons ++ cs'))

theorem has_append {r : PProg} {G : String → String → Option PV} {B : Nat → PV → Prop} {ρ : PEnv}
    {k : PKind} {a b : List PCon} {v : PV} :
    PTy.Has r G B ρ (.mk k (a ++ b)) v ↔
      PTy.Has r G B ρ (.mk k a) v ∧ ∀ c ∈ b, PCon.Sat (PVal.eval G ρ) c v := by
  constructor
  · intro h
    cases h with
    | base hb hc =>
      exact ⟨.base hb fun c h => hc c (by simp [h]), fun c h => hc c (by simp [h])⟩
    | seq hn hp ha hd hc =>
      exact ⟨.seq hn hp ha hd fun c h => hc c (by simp [h]), fun c h => hc c (by simp [h])⟩
    | choice hm hx hc =>
      exact ⟨.choice hm hx fun c h => hc c (by simp [h]), fun c h => hc c (by simp [h])⟩
    | seqOf hl hc =>
      exact ⟨.seqOf hl fun c h => hc c (by simp [h]), fun c h => hc c (by simp [h])⟩
    | param hr ht hc =>
      exact ⟨.param hr ht fun c h => hc c (by simp [h]), fun c h => hc c (by simp [h])⟩
    | ref h0 hf hl hk ht hc =>
      exact ⟨.ref h0 hf hl hk ht fun c h => hc c (by simp [h]), fun c h => hc c (by simp [h])⟩
  · rintro ⟨h, hb2⟩
    have comb : ∀ v', (∀ c ∈ a, PCon.Sat (PVal.eval G ρ) c v') →
        (∀ c ∈ b, PCon.Sat (PVal.eval G ρ) c v') → ∀ c ∈ a ++ b, PCon.Sat (PVal.eval G ρ) c v' := by
      intro v' h1 h2 c hc
      rcases List.mem_append.1 hc with h | h
      · exact h1 c h
      · exact h2 c h
    cases h with
    | base hb hc => exact .base hb (comb _ hc hb2)
    | seq hn hp ha hd hc => exact .seq hn hp ha hd (comb _ hc hb2)
    | choice hm hx hc => exact .choice hm hx (comb _ hc hb2)
    | seqOf hl hc => exact .seqOf hl (comb _ hc hb2)
    | param hr ht hc => exact .param hr ht (comb _ hc hb2)
    | ref h0 hf hl hk ht hc => exact .ref h0 hf hl hk ht (comb _ hc hb2)

theorem PTy.eta (x : PTy) : PTy.mk x.kind x.cons = x := by cases x; rfl

/-! ## Environments -/

/-- What the dummy references stand for, beside the actual parameters put in for them; the types
are related by `T`. -/
inductive EnvR (G : String → String → Option PV) (T : PEnv → PTy → PTy → Prop) :
    PEnv → PNames → Prop
  | nil : EnvR G T [] []
  | val {ρ A n o v} (h : EnvR G T ρ A) (hv : v.eval G [] = o) :
      EnvR G T ((n, .val o) :: ρ) ((n, .val v) :: A)
  | ty {ρ A n ρ0 t x} (h : EnvR G T ρ A) (ht : T ρ0 t x) :
      EnvR G T ((n, .ty ρ0 t) :: ρ) ((n, .type x) :: A)

theorem EnvR.look {G : String → String → Option PV} {T : PEnv → PTy → PTy → Prop} {ρ : PEnv}
    {A : PNames} (h : EnvR G T ρ A) (n : String) :
    (ρ.lookup n = none ∧ A.lookup n = none) ∨
    (∃ v, A.lookup n = some (.val v) ∧ ρ.lookup n = some (.val (v.eval G []))) ∨
    (∃ x ρ0 t, A.lookup n = some (.type x) ∧ ρ.lookup n = some (.ty ρ0 t) ∧ T ρ0 t x) := by
  induction h with
  | nil => exact .inl ⟨rfl, rfl⟩
  | @val ρ A m o v h hv ih =>
    by_cases hm : n = m
    · subst hm; subst hv
      exact .inr (.inl ⟨v, by simp [List.lookup], by simp [List.lookup]⟩)
    · have hb : (n == m) = false := by simpa using hm
      simpa [List.lookup, hb] using ih
  | @ty ρ A m ρ0 t x h ht ih =>
    by_cases hm : n = m
    · subst hm
      exact .inr (.inr ⟨x, ρ0, t, by simp [List.lookup], by simp [List.lookup], ht⟩)
    · have hb : (n == m) = false := by simpa using hm
      simpa [List.lookup, hb] using ih

theorem EnvR.vals {G : String → String → Option PV} {T : PEnv → PTy → PTy → Prop} {ρ : PEnv}
    {A : PNames} (h : EnvR G T ρ A) : ValRel G ρ A := by
  intro n
  rcases h.look n with ⟨h1, h2⟩ | ⟨v, h1, h2⟩ | ⟨x, ρ0, t, h1, h2, _⟩ <;> simp [h1, h2]

theorem nameArgs_env {G : String → String → Option PV} {T : PEnv → PTy → PTy → Prop} {ρ : PEnv} :
    ∀ (ps : List PParam) (args : List PArg) (as : List PSub) (A' : PNames),
    as.length = args.length →
    (∀ (i : Nat) v b, args[i]? = some (.val v) → as[i]? = some b →
        ∃ v', b = .val v' ∧ v'.eval G [] = v.eval G ρ) →
    (∀ (i : Nat) s b, args[i]? = some (.type s) → as[i]? = some b → ∃ x, b = .type x ∧ T ρ s x) →
    nameArgs ps as = some A' →
    EnvR G T ((ps.map PParam.name).zip (args.map (PArg.close G ρ))) A' ∧
    ps.length = args.length ∧
    ∀ (i : Nat) p a, ps[i]? = some p → args[i]? = some a → PParam.Fits p a
  | [], args, [], A', hl, hv, ht, h => by
    cases args with
    | nil =>
      simp only [nameArgs, Option.some.injEq] at h; subst h
      exact ⟨.nil, rfl, by intro i p a h; simp at h⟩
    | cons a as => simp at hl
  | [], args, _ :: _, A', hl, hv, ht, h => by simp [nameArgs] at h
  | _ :: _, _, [], A', hl, hv, ht, h => by simp [nameArgs] at h
  | p :: ps, args, b :: bs, A', hl, hv, ht, h => by
    cases args with
    | nil => simp at hl
    | cons a as =>
      have hl' : bs.length = as.length := by simpa using hl
      cases p with
      | type s =>
        cases b with
        | val v => simp [nameArgs] at h
        | type x =>
          simp only [nameArgs, Option.map_eq_some_iff] at h
          obtain ⟨A'', hA, rfl⟩ := h
          cases a with
          | val v => obtain ⟨v', hb, _⟩ := hv 0 v _ rfl rfl; simp at hb
          | type t =>
            obtain ⟨x', hb, hT⟩ := ht 0 t _ rfl rfl
            simp only [PSub.type.injEq] at hb; subst hb
            obtain ⟨h1, h2, h3⟩ := nameArgs_env ps as bs A'' hl'
              (fun i v b h1 h2 => hv (i + 1) v b (by simpa using h1) (by simpa using h2))
              (fun i v b h1 h2 => ht (i + 1) v b (by simpa using h1) (by simpa using h2)) hA
            refine ⟨.ty h1 hT, by simp [h2], ?_⟩
            intro i p a hp ha
            cases i with
            | zero =>
              simp only [List.getElem?_cons_zero, Option.some.injEq] at hp ha
              subst hp; subst ha; trivial
            | succ i => exact h3 i p a (by simpa using hp) (by simpa using ha)
      | value s =>
        cases b with
        | type v => simp [nameArgs] at h
        | val x =>
          simp only [nameArgs, Option.map_eq_some_iff] at h
          obtain ⟨A'', hA, rfl⟩ := h
          cases a with
          | type v => obtain ⟨v', hb, _⟩ := ht 0 v _ rfl rfl; simp at hb
          | val t =>
            obtain ⟨x', hb, hT⟩ := hv 0 t _ rfl rfl
            simp only [PSub.val.injEq] at hb; subst hb
            obtain ⟨h1, h2, h3⟩ := nameArgs_env ps as bs A'' hl'
              (fun i v b h1 h2 => hv (i + 1) v b (by simpa using h1) (by simpa using h2))
              (fun i v b h1 h2 => ht (i + 1) v b (by simpa using h1) (by simpa using h2)) hA
            refine ⟨.val h1 hT, by simp [h2], ?_⟩
            intro i p a hp ha
            cases i with
            | zero =>
              simp only [List.getElem?_cons_zero, Option.some.injEq] at hp ha
              subst hp; subst ha; trivial
            | succ i => exact h3 i p a (by simpa using hp) (by simpa using ha)

/-- The dummy references and the actual parameters, all the way down. -/
inductive EnvRel (r : PProg) (G : String → String → Option PV) : PEnv → PNames → Prop
  | nil : EnvRel r G [] []
  | val {ρ A n o v} (h : EnvRel r G ρ A) (hv : v.eval G [] = o) :
      EnvRel r G ((n, .val o) :: ρ) ((n, .val v) :: A)
  | ty {ρ A n ρ0 A0 t x} (h : EnvRel r G ρ A) (h0 : EnvRel r G ρ0 A0) (ht : Inst r A0 t x) :
      EnvRel r G ((n, .ty ρ0 t) :: ρ) ((n, .type x) :: A)

/-- The relation of types in `EnvRel`. -/
def TyRel (r : PProg) (G : String → String → Option PV) (ρ : PEnv) (t x : PTy) : Prop :=
  ∃ A0, EnvRel r G ρ A0 ∧ Inst r A0 t x

theorem envRel_iff {r : PProg} {G : String → String → Option PV} {ρ : PEnv} {A : PNames} :
    EnvRel r G ρ A ↔ EnvR G (TyRel r G) ρ A := by
  constructor
  · intro h
    induction h with
    | nil => exact .nil
    | val _ hv ih => exact .val ih hv
    | ty _ h0 ht ih _ => exact .ty ih ⟨_, h0, ht⟩
  · intro h
    induction h with
    | nil => exact .nil
    | val _ hv ih => exact .val ih hv
    | ty _ ht ih => obtain ⟨A0, h0, h1⟩ := ht; exact .ty ih h0 h1

/-! ## Children by position -/

theorem getElem?_of_map {α β γ : Type} {f : α → γ} {g : β → γ} {l : List α} {l' : List β}
    (h : l'.map g = l.map f) {i : Nat} {a : α} (ha : l[i]? = some a) :
    ∃ b, l'[i]? = some b ∧ g b = f a := by
  have h1 : (l'.map g)[i]? = some (f a) := by rw [h]; simp [ha]
  simp only [List.getElem?_map, Option.map_eq_some_iff] at h1
  exact h1

/-! ## Forward: values of the text are values of the result -/

/-- The result of the removal, assignment by assignment. -/
structure ProgRel (r r' : PProg) : Prop where
  fwd : ∀ md ts tas, r.find md ts = some tas → tas.params = [] →
    ∃ tas', r'.find md ts = some tas' ∧ tas'.params = [] ∧ Inst r [] tas.body tas'.body
  bwd : ∀ md ts tas', r'.find md ts = some tas' →
    ∃ tas, r.find md ts = some tas ∧ tas.params = [] ∧ tas'.params = [] ∧
      Inst r [] tas.body tas'.body ∧ tas'.body.argFree = true

theorem has_fwd {r r' : PProg} {G : String → String → Option PV} {B : Nat → PV → Prop}
    (hr : ProgRel r r') {ρ : PEnv} {t : PTy} {v : PV} (h : PTy.Has r G B ρ t v) :
    ∀ A t', EnvRel r G ρ A → Inst r A t t' → PTy.Has r' G B [] t' v := by
  induction h with
  | @base ρ b cs v hb hc =>
    intro A t' he hi
    have hev := cloneVal_eval (envRel_iff.1 he).vals
    cases hi with
    | base hs => exact .base hb ((subCons_sat hev _ _ hs v).1 hc)
  | @seq ρ ch cs fs hn hp ha hd hc ih =>
    intro A t' he hi
    have hev := cloneVal_eval (envRel_iff.1 he).vals
    cases hi with
    | @seq _ _ ch' _ cs' hs hn' ht ho =>
      refine .seq (hn.trans hn'.symm) ?_ ?_ ?_ ((subCons_sat hev _ _ hs _).1 hc)
      · intro i c' n x hc' hf
        obtain ⟨c, hci, _⟩ := getElem?_of_map hn'.symm hc'
        exact ih i c n x hci hf A _ he (ht i c c' hci hc')
      · intro i c' n hc' hf
        obtain ⟨c, hci, _⟩ := getElem?_of_map hn'.symm hc'
        have h1 := ha i c n hci hf
        have h2 := ho i c c' hci hc'
        rw [h1] at h2
        simpa [cloneOpt, eq_comm] using h2
      · intro i c' n d hc' hf
        obtain ⟨c, hci, _⟩ := getElem?_of_map hn'.symm hc'
        obtain ⟨w, h1, hw⟩ := hd i c n d hci hf
        have h2 := ho i c c' hci hc'
        rw [h1] at h2
        simp only [cloneOpt, Option.map_eq_some_iff] at h2
        obtain ⟨w', hw', h3⟩ := h2
        exact ⟨w', h3.symm, by rw [← hev w w' hw']; exact hw⟩
  | @choice ρ ch cs c x hm hx hc ih =>
    intro A t' he hi
    have hev := cloneVal_eval (envRel_iff.1 he).vals
    cases hi with
    | @choice _ _ ch' _ cs' hs hn' ht ho =>
      obtain ⟨i, hci⟩ := List.getElem?_of_mem hm
      obtain ⟨c', hc', hname⟩ := getElem?_of_map hn' hci
      have h1 := ih A _ he (ht i c c' hci hc')
      rw [← hname] at hc ⊢
      exact .choice (List.mem_of_getElem? hc') h1 ((subCons_sat hev _ _ hs _).1 hc)
  | @seqOf ρ t cs l hl hc ih =>
    intro A t' he hi
    have hev := cloneVal_eval (envRel_iff.1 he).vals
    cases hi with
    | seqOf hs ht =>
      exact .seqOf (fun x hx => ih x hx A _ he ht) ((subCons_sat hev _ _ hs _).1 hc)
  | @param ρ md ts cs ρ' t v hrl ht hc ih =>
    intro A t' he hi
    have hE := envRel_iff.1 he
    have hev := cloneVal_eval hE.vals
    cases hi with
    | plain hs hl =>
      rcases hE.look ts with ⟨h1, h2⟩ | ⟨w, h1, h2⟩ | ⟨x, ρ0, t0, h1, h2, _⟩
      · simp [h1] at hrl
      · simp [hl] at h1
      · simp [hl] at h1
    | @param _ _ _ _ cs' x hs hl =>
      rcases hE.look ts with ⟨h1, h2⟩ | ⟨w, h1, h2⟩ | ⟨x', ρ0, t0, h1, h2, hT⟩
      · simp [h1] at hrl
      · simp [h1] at hl
      · rw [h1] at hl; simp only [Option.some.injEq, PSub.type.injEq] at hl; subst hl
        rw [h2] at hrl
        simp only [Option.some.injEq, PClo.ty.injEq] at hrl
        obtain ⟨rfl, rfl⟩ := hrl
        obtain ⟨A0, h0, hI⟩ := hT
        rw [has_append, PTy.eta]
        exact ⟨ih A0 _ h0 hI, (subCons_sat hev _ _ hs _).1 hc⟩
    | inst hs h0 => exact absurd rfl h0
  | @ref ρ md ts args cs tas v h0 hf hl hk ht hc ih =>
    intro A t' he hi
    have hE := envRel_iff.1 he
    have hev := cloneVal_eval hE.vals
    cases hi with
    | plain hs hlk =>
      have hp : tas.params = [] := by
        cases hq : tas.params with
        | nil => rfl
        | cons a as => rw [hq] at hl; simp at hl
      obtain ⟨tas', hf', hp', hI⟩ := hr.fwd md ts tas hf hp
      have hb := ih [] tas'.body (by rw [hp]; exact .nil) hI
      refine .ref (fun _ => rfl) hf' (by rw [hp']; rfl) ?_ ?_ ((subCons_sat hev _ _ hs _).1 hc)
      · intro i p a h; rw [hp'] at h; simp at h
      · rw [hp']; exact hb
    | @param _ _ _ _ cs' x hs hlk =>
      rcases hE.look ts with ⟨h1, h2⟩ | ⟨w, h1, h2⟩ | ⟨x', ρ0, t0, h1, h2, hT⟩
      · simp [h2] at hlk
      · simp [h1] at hlk
      · rw [h0 rfl] at h2; simp at h2
    | @inst _ _ _ _ _ cs' tas' as A' t1 hs hne hf' hlen hv hty hti hA hb =>
      rw [hf] at hf'; simp only [Option.some.injEq] at hf'; subst hf'
      obtain ⟨h1, _, _⟩ := nameArgs_env (G := G) (T := TyRel r G) (ρ := ρ) tas.params args as A'
        hlen
        (fun i w b h1 h2 => by
          obtain ⟨v', hb', hv'⟩ := hv i w b h1 h2
          exact ⟨v', hb', (hev w v' hv').symm⟩)
        (fun i s b h1 h2 => by
          obtain ⟨x, rfl⟩ := hty i s b h1 h2
          exact ⟨x, rfl, A, he, hti i s x h1 h2⟩) hA
      rw [has_append, PTy.eta]
      exact ⟨ih A' _ (envRel_iff.2 h1) hb, (subCons_sat hev _ _ hs _).1 hc⟩

/-! ## Backward: values of the result are values of the text -/

theorem inst_bwd {r : PProg} {G : String → String → Option PV} {B : Nat → PV → Prop}
    {A : PNames} {t t' : PTy} (hi : Inst r A t t') :
    ∀ ρ v, EnvR G (fun ρ0 t0 x => ∀ v, PTy.Has r G B [] x v → PTy.Has r G B ρ0 t0 v) ρ A →
    PTy.Has r G B [] t' v → PTy.Has r G B ρ t v := by
  induction hi with
  | base hs =>
    intro ρ v he h
    have hev := cloneVal_eval he.vals
    cases h with
    | base hb hc => exact .base hb ((subCons_sat hev _ _ hs v).2 hc)
  | @seq A ch ch' cs cs' hs hn' ht ho ih =>
    intro ρ v he h
    have hev := cloneVal_eval he.vals
    cases h with
    | @seq _ _ _ fs hn hp ha hd hc =>
      refine .seq (hn.trans hn') ?_ ?_ ?_ ((subCons_sat hev _ _ hs _).2 hc)
      · intro i c n x hci hf
        obtain ⟨c', hc', _⟩ := getElem?_of_map hn' hci
        exact ih i c c' hci hc' ρ x he (hp i c' n x hc' hf)
      · intro i c n hci hf
        obtain ⟨c', hc', _⟩ := getElem?_of_map hn' hci
        have h1 := ha i c' n hc' hf
        have h2 := ho i c c' hci hc'
        rw [h1] at h2
        cases ho' : c.opt with
        | mandatory => rw [ho'] at h2; simp [cloneOpt] at h2
        | optional => rfl
        | default w => rw [ho'] at h2; simp [cloneOpt] at h2
      · intro i c n d hci hf
        obtain ⟨c', hc', _⟩ := getElem?_of_map hn' hci
        obtain ⟨w', h1, hw⟩ := hd i c' n d hc' hf
        have h2 := ho i c c' hci hc'
        rw [h1] at h2
        cases ho' : c.opt with
        | mandatory => rw [ho'] at h2; simp [cloneOpt] at h2
        | optional => rw [ho'] at h2; simp [cloneOpt] at h2
        | default w =>
          rw [ho'] at h2
          simp only [cloneOpt, Option.map_eq_some_iff, POpt.default.injEq] at h2
          obtain ⟨w2, hw2, rfl⟩ := h2
          exact ⟨w, rfl, by rw [hev w w2 hw2]; exact hw⟩
  | @choice A ch ch' cs cs' hs hn' ht ho ih =>
    intro ρ v he h
    have hev := cloneVal_eval he.vals
    cases h with
    | @choice _ _ _ c' x hm hx hc =>
      obtain ⟨i, hci'⟩ := List.getElem?_of_mem hm
      obtain ⟨c, hci, hname⟩ := getElem?_of_map hn'.symm hci'
      have h1 := ih i c c' hci hci' ρ x he hx
      rw [← hname] at hc ⊢
      exact .choice (List.mem_of_getElem? hci) h1 ((subCons_sat hev _ _ hs _).2 hc)
  | seqOf hs ht ih =>
    intro ρ v he h
    have hev := cloneVal_eval he.vals
    cases h with
    | seqOf hl hc =>
      exact .seqOf (fun x hx => ih ρ x he (hl x hx)) ((subCons_sat hev _ _ hs _).2 hc)
  | @plain A md ts cs cs' hs hlk =>
    intro ρ v he h
    have hev := cloneVal_eval he.vals
    have hρ : ρ.lookup ts = none := by
      rcases he.look ts with ⟨h1, h2⟩ | ⟨w, h1, h2⟩ | ⟨x', ρ0, t0, h1, h2, hT⟩
      · exact h1
      · simp [hlk] at h1
      · simp [hlk] at h1
    cases h with
    | param hr => simp [List.lookup] at hr
    | @ref _ _ _ _ _ tas _ h0 hf hl hk ht hc =>
      refine .ref (fun _ => hρ) hf hl hk ?_ ((subCons_sat hev _ _ hs _).2 hc)
      simpa using ht
  | @param A md ts cs cs' x hs hlk =>
    intro ρ v he h
    have hev := cloneVal_eval he.vals
    rw [has_append, PTy.eta] at h
    rcases he.look ts with ⟨h1, h2⟩ | ⟨w, h1, h2⟩ | ⟨x', ρ0, t0, h1, h2, hT⟩
    · simp [h2] at hlk
    · simp [h1] at hlk
    · rw [h1] at hlk; simp only [Option.some.injEq, PSub.type.injEq] at hlk; subst hlk
      exact .param h2 (hT v h.1) ((subCons_sat hev _ _ hs _).2 h.2)
  | @inst A md ts args cs cs' tas as A' t1 hs hne hf hlen hv hty hti hA hb iht ihb =>
    intro ρ v he h
    have hev := cloneVal_eval he.vals
    rw [has_append, PTy.eta] at h
    obtain ⟨h1, h2, h3⟩ := nameArgs_env (G := G)
      (T := fun ρ0 t0 x => ∀ v, PTy.Has r G B [] x v → PTy.Has r G B ρ0 t0 v) (ρ := ρ)
      tas.params args as A' hlen
      (fun i w b h1 h2 => by
        obtain ⟨v', hb', hv'⟩ := hv i w b h1 h2
        exact ⟨v', hb', (hev w v' hv').symm⟩)
      (fun i s b h1 h2 => by
        obtain ⟨x, rfl⟩ := hty i s b h1 h2
        exact ⟨x, rfl, fun v hx => iht i s x h1 h2 ρ v he hx⟩) hA
    exact .ref (fun h => absurd h hne) hf h2 h3 (ihb _ v h1 h.1)
      ((subCons_sat hev _ _ hs _).2 h.2)

theorem argFreeAll_getElem {ch : List PChild} (h : PChild.argFreeAll ch = true) :
    ∀ (i : Nat) c, ch[i]? = some c → c.ty.argFree = true := by
  induction ch with
  | nil => intro i c hc; simp at hc
  | cons d ds ih =>
    obtain ⟨n, t, o⟩ := d
    simp only [PChild.argFreeAll, Bool.and_eq_true] at h
    intro i c hc
    cases i with
    | zero => simp only [List.getElem?_cons_zero, Option.some.injEq] at hc; subst hc; exact h.1
    | succ i => exact ih h.2 i c (by simpa using hc)

theorem has_bwd {r r' : PProg} {G : String → String → Option PV} {B : Nat → PV → Prop}
    (hr : ProgRel r r') {ρ : PEnv} {t : PTy} {v : PV} (h : PTy.Has r' G B ρ t v) :
    ρ = [] → t.argFree = true → PTy.Has r G B [] t v := by
  induction h with
  | base hb hc => rintro rfl _; exact .base hb hc
  | seq hn hp ha hd hc ih =>
    rintro rfl hf
    simp only [PTy.argFree, PKind.argFree] at hf
    exact .seq hn (fun i c n x h1 h2 => ih i c n x h1 h2 rfl (argFreeAll_getElem hf i c h1))
      ha hd hc
  | choice hm hx hc ih =>
    rintro rfl hf
    simp only [PTy.argFree, PKind.argFree] at hf
    obtain ⟨i, hi⟩ := List.getElem?_of_mem hm
    exact .choice hm (ih rfl (argFreeAll_getElem hf i _ hi)) hc
  | seqOf hl hc ih =>
    rintro rfl hf
    simp only [PTy.argFree, PKind.argFree] at hf
    exact .seqOf (fun x hx => ih x hx rfl hf) hc
  | param hrl => rintro rfl _; simp [List.lookup] at hrl
  | @ref ρ md ts args cs tas v h0 hf hl hk ht hc ih =>
    rintro rfl hfree
    cases args with
    | cons a as => simp [PTy.argFree, PKind.argFree] at hfree
    | nil =>
      obtain ⟨tas0, hf0, hp0, hp, hI, hfree'⟩ := hr.bwd md ts tas hf
      have h1 := ih (by rw [hp]; rfl) hfree'
      have h2 := inst_bwd hI [] v .nil h1
      refine .ref (fun _ => rfl) hf0 (by rw [hp0]; rfl) ?_ ?_ hc
      · intro i p a h; rw [hp0] at h; simp at h
      · rw [hp0]; exact h2

theorem progRel_has {r r' : PProg} {G : String → String → Option PV} {B : Nat → PV → Prop}
    (hr : ProgRel r r') (md ts : String) (v : PV) : r.Has G B md ts v ↔ r'.Has G B md ts v := by
  constructor
  · intro h
    exact has_fwd hr h [] _ .nil (.plain (cs := []) rfl rfl)
  · intro h
    exact has_bwd hr h rfl rfl

end Asn1
