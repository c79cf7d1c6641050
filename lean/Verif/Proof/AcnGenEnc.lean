import Verif.Proof.AcnGenStr
import Verif.Proof.AcnGenUpd
import Verif.Proof.GenTy
/-! The generated ACN encoders write the specified bits. -/
namespace Asn1

/-- `f` writes the bits `w` of the position it starts at, and says TRUE. -/
def AppP (f : M (Bool × DetEnv)) (w : Nat → List Bool) : Prop :=
  ∀ s bs, EncSt s bs → bs.length + (w bs.length).length ≤ 8 * s.count →
    ∃ e s', f s = .ok ((true, e), s') ∧ EncSt s' (bs ++ w bs.length) ∧ Frame s s'

theorem AppP.congr {f : M (Bool × DetEnv)} {w w' : Nat → List Bool} (h : AppP f w) (e : ∀ p, w p = w' p) : AppP f w' := by
  rw [← funext e]; exact h

theorem AppP.pure (env : DetEnv) : AppP (Pure.pure (true, env)) (fun _ => []) := by
  intro s bs hs _
  exact ⟨env, s, rfl, by rw [List.append_nil]; exact hs, ⟨rfl, rfl, fun _ _ => rfl⟩⟩

theorem AppP.of {f : M Bool} {w : List Bool} (h : Appends f true w) (env : DetEnv) :
    AppP (do let r ← f; Pure.pure (r, env)) (fun _ => w) := by
  intro s bs hs hr
  obtain ⟨s', h1, h2, h3⟩ := h s bs hs hr
  exact ⟨env, s', by rw [bind_ok h1]; rfl, h2, h3⟩

theorem AppP.ofUnit {f : M Unit} {w : List Bool} (h : Appends f () w) (env : DetEnv) :
    AppP (do f; Pure.pure (true, env)) (fun _ => w) := by
  intro s bs hs hr
  obtain ⟨s', h1, h2, h3⟩ := h s bs hs hr
  exact ⟨env, s', by rw [bind_ok h1]; rfl, h2, h3⟩

theorem frame_trans {s s1 s2 : BitStream} (h1 : Frame s s1) (h2 : Frame s1 s2) : Frame s s2 :=
  ⟨h2.count.trans h1.count, h2.len.trans h1.len, fun i hi => (h2.tail i (by rw [h1.count]; exact hi)).trans (h1.tail i hi)⟩

theorem AppP.unit {g : M Unit} {f : M (Bool × DetEnv)} {w1 : List Bool} {w2 : Nat → List Bool} (h1 : Appends g () w1) (h2 : AppP f w2) :
    AppP (do g; f) (followedBy (fun _ => w1) w2) := by
  intro s bs hs hr
  simp only [followedBy, List.length_append] at hr ⊢
  obtain ⟨s1, a1, a2, a3⟩ := h1 s bs hs (by omega)
  obtain ⟨e, s2, b1, b2, b3⟩ := h2 s1 (bs ++ w1) a2 (by rw [a3.count, List.length_append]; omega)
  refine ⟨e, s2, by rw [bind_ok a1]; exact b1, ?_, frame_trans a3 b3⟩
  rw [← List.append_assoc, ← List.length_append]
  exact b2

theorem AppP.bind {f : M (Bool × DetEnv)} {g : DetEnv → M (Bool × DetEnv)} {w1 w2 : Nat → List Bool} (h1 : AppP f w1)
    (h2 : ∀ env, AppP (g env) w2) :
    AppP (do let r ← f; if r.1 then g r.2 else Pure.pure (false, r.2)) (followedBy w1 w2) := by
  intro s bs hs hr
  simp only [followedBy, List.length_append] at hr ⊢
  obtain ⟨e, s1, a1, a2, a3⟩ := h1 s bs hs (by omega)
  obtain ⟨e2, s2, b1, b2, b3⟩ := h2 e s1 (bs ++ w1 bs.length) a2 (by rw [a3.count, List.length_append]; omega)
  refine ⟨e2, s2, by rw [bind_ok a1]; exact b1, ?_, frame_trans a3 b3⟩
  rw [← List.append_assoc, ← List.length_append]
  exact b2

theorem AppP.bindFlag {f : M Bool} {g : M (Bool × DetEnv)} {w1 : List Bool} {w2 : Nat → List Bool} {env : DetEnv} (h1 : Appends f true w1)
    (h2 : AppP g w2) :
    AppP (do let r ← f; if r then g else Pure.pure (false, env)) (followedBy (fun _ => w1) w2) := by
  intro s bs hs hr
  simp only [followedBy, List.length_append] at hr ⊢
  obtain ⟨s1, a1, a2, a3⟩ := h1 s bs hs (by omega)
  obtain ⟨e2, s2, b1, b2, b3⟩ := h2 s1 (bs ++ w1) a2 (by rw [a3.count, List.length_append]; omega)
  refine ⟨e2, s2, by rw [bind_ok a1]; exact b1, ?_, frame_trans a3 b3⟩
  rw [← List.append_assoc, ← List.length_append]
  exact b2

theorem Align.size_pos (a : Align) : a.size = 8 ∨ a.size = 16 ∨ a.size = 32 := by cases a <;> simp [Align.size]

theorem alignUp_pad (a : Align) (p : Nat) : alignUp a.size p = p + (padTo a.size p).length := by
  unfold alignUp padTo
  rw [List.length_replicate]
  rcases a.size_pos with h | h | h <;> rw [h] <;> omega

theorem padTo_eq (a : Align) (p : Nat) : padTo a.size p = List.replicate (alignUp a.size p - p) false := by
  rw [alignUp_pad]
  unfold padTo
  rw [List.length_replicate, Nat.add_sub_cancel_left]

theorem alignTo_run (a : Align) {s : BitStream} (hb : s.currentBit < 8) (h : alignUp a.size s.pos ≤ 8 * s.count) :
    alignTo a s = .ok ((), atPos s (alignUp a.size s.pos)) := by
  cases a with
  | byte => exact acnAlignToNextByte_run hb h
  | word => exact acnAlignToNextWord_run hb h
  | dword => exact acnAlignToNextDWord_run hb h

theorem AppP.align (a : Align) {f : M (Bool × DetEnv)} {w : Nat → List Bool} (h : AppP f w) :
    AppP (do alignTo a; f) (followedBy (padTo a.size) w) := by
  intro s bs hs hr
  simp only [followedBy, List.length_append] at hr ⊢
  have hp := hs.pos
  have hu := alignUp_pad a s.pos
  rw [← hp] at hr
  have a1 := alignTo_run a hs.wf.bit (by omega)
  have a2 := atPos_encSt hs (p := alignUp a.size s.pos) (by omega) (by omega)
  rw [← padTo_eq] at a2
  have hl : (bs ++ padTo a.size s.pos).length = s.pos + (padTo a.size s.pos).length := by rw [List.length_append, hp]
  obtain ⟨e, s2, b1, b2, b3⟩ := h _ _ a2 (by rw [hl]; show _ ≤ 8 * s.count; omega)
  refine ⟨e, s2, by rw [bind_ok a1]; exact b1, ?_, ⟨b3.count, b3.len, b3.tail⟩⟩
  rw [hl, hp] at b2
  rw [← List.append_assoc]
  exact b2

theorem AppP.alignOpt (a : Option Align) {f : M (Bool × DetEnv)} {w : Nat → List Bool} (h : AppP f w) :
    AppP (do alignOpt a; f) (followedBy (padOpt a) w) := by
  cases a with
  | none =>
    refine AppP.congr (w := w) ?_ (fun p => by simp [followedBy, padOpt])
    simp only [Asn1.alignOpt, pure_bind]; exact h
  | some a => exact h.align a

theorem followedBy_assoc (a b c : Nat → List Bool) (p : Nat) : followedBy (followedBy a b) c p = followedBy a (followedBy b c) p := by
  simp only [followedBy, List.append_assoc, List.length_append, Nat.add_assoc]

theorem encItemsA_app {item : DetEnv → Val → M (Bool × DetEnv)} {c : Val → Nat → List Bool} :
    ∀ (vs : List Val) (env : DetEnv), (∀ v ∈ vs, ∀ env, AppP (item env v) (c v)) → AppP (encItemsA item vs vs.length env) (itemsCode c vs)
  | [], env, _ => by simp only [List.length_nil, encItemsA]; exact AppP.pure env
  | v :: vs, env, h => by
    simp only [List.length_cons, encItemsA]
    exact (h v (by simp) env).bind (fun env' => encItemsA_app vs env' (fun v' hv' => h v' (by simp [hv'])))

theorem encPresA_appends : ∀ (fs : AFields) (rq : List (Nat × Int)) (vs : List (Bool × Val)), AValidFields fs rq vs →
    Appends (encPresA fs vs) () (presACode fs vs)
  | .nil, rq, [], _ => by simp only [encPresA, presACode]; exact Appends.pure _
  | .nil, rq, _ :: _, h => by simp [AValidFields] at h
  | .asn1 o t rest, rq, [], h => by cases o <;> simp [AValidFields] at h
  | .asn1 o t rest, rq, (e, v) :: vs, h => by
    have hr : AValidFields rest rq vs := by
      cases o with
      | optional p d => cases d <;> (simp only [AValidFields] at h; exact h.2)
      | _ => simp only [AValidFields] at h; exact h.2
    have ih := encPresA_appends rest rq vs hr
    have plain : Appends (do (pure () : M Unit); encPresA rest vs) () (presACode rest vs) := ih
    cases o with
    | optional p d =>
      cases p with
      | bit =>
        simp only [encPresA, presACode]
        exact (appendBit_writes e).appends.bind (g := fun _ => encPresA rest vs) ih
      | whenBool k => simp only [encPresA, presACode]; exact plain
    | mandatory => simp only [encPresA, presACode]; exact plain
    | absent => simp only [encPresA, presACode]; exact plain
    | present => simp only [encPresA, presACode]; exact plain
  | .acn _ _ _ rest, rq, vs, h => by
    simp only [AValidFields] at h
    simp only [encPresA, presACode]; exact encPresA_appends rest rq vs h.2
  | .acnNull _ _ rest, rq, vs, h => by
    simp only [AValidFields] at h
    simp only [encPresA, presACode]; exact encPresA_appends rest rq vs h

/-- The update statements set what is required. -/
def Needs (need : Nat → List Upd) (rq : List (Nat × Int)) : Prop := ∀ k x, Demands rq k x → mergeUpd (need k) = .set x

theorem needs_of {t : ATy} {rq : List (Nat × Int)} {v : Val} (ho : AOk t) (h : AValid t rq v) :
    Needs (fun k => upd t k (some v)) (required t v) := fun _ _ hd => merge_demands ho h hd

theorem leafVal_appends {l : ALeaf} {v : Val} (h : LeafValid l v) : ∃ x, leafInt l v = some x ∧ v = leafVal l x ∧ LeafFits l x ∧ leafValCode l v = leafCode l x := by
  cases l <;> cases v <;> simp only [LeafValid] at h
  · exact ⟨_, rfl, rfl, h.2, rfl⟩
  · rename_i e b
    exact ⟨_, rfl, by cases b <;> rfl, h, rfl⟩
  · exact ⟨_, rfl, rfl, h.2, rfl⟩

theorem setWidth_big {d : BitVec 64} (h : d.toNat < 2 ^ 32) : (d.setWidth 32).toNat = d.toNat := by
  rw [BitVec.toNat_setWidth, Nat.mod_eq_of_lt h]

theorem acnEncReal_appends (size : Nat) (d : BitVec (8 * size)) :
    Appends (acnEncRealBig size d) () (bytesBits (bigImage size d.toNat)) ∧
    Appends (acnEncRealLittle size d) () (bytesBits (bigImage size d.toNat).reverse) := by
  have a1 : Appends (acnEncRealBig size d) () _ := acnEncRealLoop_appends (memImage size d).reverse
  have a2 : Appends (acnEncRealLittle size d) () _ := acnEncRealLoop_appends (memImage size d)
  rw [← bigImage_eq]
  exact ⟨a1, by rw [List.reverse_reverse]; exact a2⟩

mutual
theorem encA_app : ∀ (t : ATy) (need : Nat → List Upd) (rq : List (Nat × Int)) (env : DetEnv) (v : Val), AOk t → AValid t rq v →
    Needs need rq → AppP (encA t need env v) (acode t rq v)
  | .prim t, need, rq, env, v, ho, h, hn => by
    simp only [AValid] at h
    simp only [AOk] at ho
    have e : ∀ p, code false t v = acode (.prim t) rq v p := fun p => by simp only [acode]
    refine AppP.congr (w := fun _ => code false t v) ?_ e
    simp only [encA]
    exact AppP.of (encTy_appends t v ho.1 h) env
  | .leaf l, need, rq, env, v, ho, h, hn => by
    simp only [AValid] at h
    obtain ⟨x, h1, h2, h3, h4⟩ := leafVal_appends h
    refine AppP.congr (w := fun _ => leafCode l x) ?_ (fun p => by simp only [acode, h4])
    simp only [encA, h1]
    exact AppP.of (encLeaf_appends h3) env
  | .nullPat pat n, need, rq, env, v, ho, h, hn => by
    cases v <;> simp only [AValid] at h
    simp only [AOk] at ho
    refine AppP.congr (w := fun _ => (bytesBits pat).take n) ?_ (fun p => by simp only [acode])
    simp only [encA]
    exact AppP.ofUnit (appendBits_appends ho) env
  | .real64 little holds, need, rq, env, v, ho, h, hn => by
    cases v <;> simp only [AValid] at h
    rename_i d
    refine AppP.congr (w := fun _ => bytesBits (if little then (bigImage 8 d.toNat).reverse else bigImage 8 d.toNat)) ?_ (fun p => by simp only [acode])
    simp only [encA]
    refine AppP.ofUnit ?_ env
    cases little
    · exact (acnEncReal_appends 8 d).1
    · exact (acnEncReal_appends 8 d).2
  | .real32 little holds, need, rq, env, v, ho, h, hn => by
    cases v <;> simp only [AValid] at h
    rename_i d
    refine AppP.congr (w := fun _ => bytesBits (if little then (bigImage 4 d.toNat).reverse else bigImage 4 d.toNat)) ?_ (fun p => by simp only [acode])
    simp only [encA]
    refine AppP.ofUnit ?_ env
    have := acnEncReal_appends 4 (d.setWidth 32)
    have e : BitVec.toNat (w := 8 * 4) (d.setWidth 32) = d.toNat := setWidth_big h.2
    rw [e] at this
    cases little
    · exact this.1
    · exact this.2
  | .octets lo hi k dmax, need, rq, env, v, ho, h, hn => by
    cases v <;> simp only [AValid] at h
    rename_i arr
    refine AppP.congr (w := fun _ => bytesBits arr) ?_ (fun p => by simp only [acode])
    simp only [encA]
    exact AppP.of (encOctetsExt_appends h.1 h.2) env
  | .bits lo hi k dmax, need, rq, env, v, ho, h, hn => by
    cases v <;> simp only [AValid] at h
    rename_i n arr
    obtain ⟨h1, h2, w, rfl, hw⟩ := h
    refine AppP.congr (w := fun _ => (bytesBits arr).take w.length) ?_ (fun p => by simp only [acode])
    simp only [encA]
    exact AppP.of (encBitsExt_appends h1 h2 hw) env
  | .strAscii alphabet lo hi, need, rq, env, v, ho, h, hn => by
    cases v <;> simp only [AValid] at h
    rename_i chars
    simp only [AOk] at ho
    refine AppP.congr (w := fun _ => constrainedCode lo hi chars.length ++ bytesBits chars) ?_ (fun p => by simp only [acode])
    simp only [encA]
    exact AppP.of (encStrAscii_appends ho.2 h) env
  | .strNull alphabet lo hi nul, need, rq, env, v, ho, h, hn => by
    cases v <;> simp only [AValid] at h
    rename_i chars
    refine AppP.congr (w := fun _ => bytesBits (chars ++ nul)) ?_ (fun p => by simp only [acode])
    simp only [encA]
    exact AppP.of (encStrNull_appends h.1) env
  | .strExt alphabet lo hi k, need, rq, env, v, ho, h, hn => by
    cases v <;> simp only [AValid] at h
    rename_i chars
    refine AppP.congr (w := fun _ => bytesBits chars) ?_ (fun p => by simp only [acode])
    simp only [encA]
    exact AppP.of (encStrExt_appends h) env
  | .strIdx alphabet lo hi k, need, rq, env, v, ho, h, hn => by
    cases v <;> simp only [AValid] at h
    rename_i chars
    simp only [AOk] at ho
    refine AppP.congr (w := fun _ => indexCode alphabet chars) ?_ (fun p => by simp only [acode])
    simp only [encA]
    exact AppP.of (encStrIdx_appends ho.2.2.2.1 ho.2.2.2.2 h) env
  | .seq fs, need, rq, env, v, ho, h, hn => by
    cases v <;> simp only [AValid] at h
    rename_i vs
    simp only [AOk] at ho
    refine AppP.congr (w := followedBy (fun _ => presACode fs vs) (acodeFields fs rq vs)) ?_ (fun p => by simp only [acode])
    simp only [encA]
    exact AppP.unit (encPresA_appends fs rq vs h) (encAFields_app fs need rq env vs ho h hn)
  | .seqOf lo hi k t, need, rq, env, v, ho, h, hn => by
    cases v <;> simp only [AValid] at h
    rename_i vs
    simp only [AOk] at ho
    obtain ⟨h1, h2, h3⟩ := h
    have items : AppP (encItemsA (fun env v => encA t (fun k => upd t k (some v)) env v) vs (if lo = hi then hi else vs.length) env)
        (itemsCode (fun v => acode t (required t v) v) vs) := by
      rw [show (if lo = hi then hi else vs.length) = vs.length by split <;> omega]
      exact encItemsA_app vs env (fun v hv env => encA_app t _ _ env v ho.2.2 (h3 v hv) (needs_of ho.2.2 (h3 v hv)))
    cases k with
    | none =>
      refine AppP.congr (w := followedBy (fun _ => constrainedCode lo hi vs.length) (itemsCode (fun v => acode t (required t v) v) vs)) ?_
        (fun p => by simp only [acode])
      simp only [encA]
      refine AppP.unit ?_ items
      split
      · rename_i e
        rw [e, constrainedCode_self]
        exact Appends.pure _
      · exact encodeConstraintWholeNumber_appends (by omega) (by omega) (by omega)
    | some k =>
      refine AppP.congr (w := itemsCode (fun v => acode t (required t v) v) vs) ?_ (fun p => by simp only [acode])
      simp only [encA, pure_bind]
      exact items
  | .choice byDet alts, need, rq, env, v, ho, h, hn => by
    cases v <;> simp only [AValid] at h
    rename_i i v
    simp only [AOk] at ho
    have hi := aValidAlt_lt h
    refine AppP.congr (w := followedBy (fun _ => if byDet then [] else constrainedCode 0 ((alts.length : Int) - 1) i) (acodeAlt alts i rq v)) ?_
      (fun p => by simp only [acode])
    simp only [encA]
    rw [if_pos hi]
    refine AppP.unit ?_ (encAAlt_app alts i need rq env v ho.2.2.2 h hn)
    cases byDet
    · exact encodeConstraintWholeNumber_appends (by omega) (by omega) (by omega)
    · exact Appends.pure _
  | .ref args t, need, rq, env, v, ho, h, hn => by
    simp only [AValid] at h
    simp only [AOk] at ho
    refine AppP.congr (w := acode t (required t v) v) ?_ (fun p => by simp only [acode])
    simp only [encA]
    have := encA_app t _ _ DetEnv.empty v ho.2.2 h (needs_of ho.2.2 h)
    intro s bs hs hr
    obtain ⟨e, s', a1, a2, a3⟩ := this s bs hs hr
    exact ⟨env, s', by rw [bind_ok a1]; rfl, a2, a3⟩
  | .align a t, need, rq, env, v, ho, h, hn => by
    simp only [AValid] at h
    simp only [AOk] at ho
    refine AppP.congr (w := followedBy (padTo a.size) (acode t rq v)) ?_ (fun p => by simp only [acode])
    simp only [encA]
    exact (encA_app t need rq env v ho h hn).align a
theorem encAFields_app : ∀ (fs : AFields) (need : Nat → List Upd) (rq : List (Nat × Int)) (env : DetEnv) (vs : List (Bool × Val)), AOkFields fs →
    AValidFields fs rq vs → Needs need rq → AppP (encAFields fs need env vs) (acodeFields fs rq vs)
  | .nil, need, rq, env, [], _, _, _ => by
    refine AppP.congr (w := fun _ => []) ?_ (fun p => by simp only [acodeFields])
    simp only [encAFields]; exact AppP.pure env
  | .nil, need, rq, env, _ :: _, _, h, _ => by simp [AValidFields] at h
  | .asn1 o t rest, need, rq, env, [], _, h, _ => by cases o <;> simp [AValidFields] at h
  | .asn1 o t rest, need, rq, env, (e, v) :: vs, ho, h, hn => by
    simp only [AOkFields] at ho
    have step : AValidFields rest rq vs → ∀ f : M (Bool × DetEnv), AppP f (fun p => if e then acode t rq v p else []) →
        AppP (do let r ← f; if r.1 then encAFields rest need r.2 vs else pure (false, r.2)) (acodeFields (.asn1 o t rest) rq ((e, v) :: vs)) := by
      intro hr f hf
      refine AppP.congr (w := followedBy (fun p => if e then acode t rq v p else []) (acodeFields rest rq vs)) ?_ (fun p => by simp only [acodeFields])
      exact hf.bind (fun env' => encAFields_app rest need rq env' vs ho.2 hr hn)
    have there : e = true → AValid t rq v → AppP (encA t need env v) (fun p => if e then acode t rq v p else []) := by
      intro he hv; subst he
      exact encA_app t need rq env v ho.1 hv hn
    have away : e = false → AppP (pure (true, env)) (fun p => if e then acode t rq v p else []) := by
      intro he; subst he
      exact AppP.pure env
    have opt : (e = true → AValid t rq v) → AppP (if e then encA t need env v else pure (true, env)) (fun p => if e then acode t rq v p else []) := by
      intro hv
      split
      · rename_i he; exact encA_app t need rq env v ho.1 (hv he) hn
      · rename_i he; exact AppP.pure env
    cases o with
    | mandatory =>
      simp only [AValidFields] at h
      simp only [encAFields]
      exact step h.2 _ (there h.1.1 h.1.2)
    | optional p d =>
      have h' : (e = true → AValid t rq v) ∧ AValidFields rest rq vs := by
        cases d <;> simp only [AValidFields] at h <;> refine ⟨fun he => ?_, h.2⟩ <;> rcases h.1 with h' | h' <;>
          first | exact h'.2 | (rw [he] at h'; simp at h')
      simp only [encAFields]
      exact step h'.2 _ (opt h'.1)
    | absent =>
      simp only [AValidFields] at h
      simp only [encAFields]
      exact step h.2 _ (away h.1.1)
    | present =>
      simp only [AValidFields] at h
      simp only [encAFields]
      exact step h.2 _ (there h.1.1 h.1.2)
  | .acn k a l rest, need, rq, env, vs, ho, h, hn => by
    simp only [AValidFields] at h
    simp only [AOkFields] at ho
    obtain ⟨⟨x, hd, hf⟩, hr⟩ := h
    refine AppP.congr (w := followedBy (padOpt a) (followedBy (fun _ => leafCode l x) (acodeFields rest rq vs))) ?_
      (fun p => by simp only [acodeFields, demanded_eq hd, ← followedBy_assoc])
    simp only [encAFields, hn k x hd]
    have e : (env.set k x) k = some x := by simp [DetEnv.set]
    simp only [e]
    exact AppP.alignOpt a (AppP.bindFlag (encLeaf_appends hf) (encAFields_app rest need rq (env.set k x) vs ho hr hn))
  | .acnNull pat n rest, need, rq, env, vs, ho, h, hn => by
    simp only [AValidFields] at h
    simp only [AOkFields] at ho
    refine AppP.congr (w := followedBy (fun _ => (bytesBits pat).take n) (acodeFields rest rq vs)) ?_ (fun p => by simp only [acodeFields])
    simp only [encAFields]
    exact AppP.unit (appendBits_appends ho.1) (encAFields_app rest need rq env vs ho.2 h hn)
theorem encAAlt_app : ∀ (alts : AAlts) (i : Nat) (need : Nat → List Upd) (rq : List (Nat × Int)) (env : DetEnv) (v : Val), AOkAlts alts →
    AValidAlt alts i rq v → Needs need rq → AppP (encAAlt alts i need env v) (acodeAlt alts i rq v)
  | .nil, _, _, _, _, _, _, h, _ => by simp [AValidAlt] at h
  | .cons c t rest, 0, need, rq, env, v, ho, h, hn => by
    simp only [AValidAlt] at h
    simp only [AOkAlts] at ho
    refine AppP.congr (w := acode t rq v) ?_ (fun p => by simp only [acodeAlt])
    simp only [encAAlt]
    exact encA_app t need rq env v ho.1 h hn
  | .cons c t rest, i + 1, need, rq, env, v, ho, h, hn => by
    simp only [AValidAlt] at h
    simp only [AOkAlts] at ho
    refine AppP.congr (w := acodeAlt rest i rq v) ?_ (fun p => by simp only [acodeAlt])
    simp only [encAAlt]
    exact encAAlt_app rest i need rq env v ho.2 h hn
end

end Asn1
