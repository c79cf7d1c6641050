import Verif.Proof.WShort
/-! Generated code: item loops and fragmentation. -/
namespace Asn1

/-! ### item loops -/

section
variable {α : Type} {c : α → List Bool}

theorem drop_get {xs ys : List α} {x : α} {off : Nat} {rest : List α} (h : xs.drop off = x :: ys ++ rest) :
    xs[off]? = some x ∧ xs.drop (off + 1) = ys ++ rest := by
  constructor
  · have := congrArg (fun l => l[0]?) h
    simpa using this
  · have := congrArg (fun l => l.drop 1) h
    simpa [List.drop_drop] using this

theorem encLoop_list {it : Nat → M Bool} {xs : List α} (h : ∀ i x, xs[i]? = some x → Appends (it i) true (c x)) (ys : List α) :
    ∀ off rest, xs.drop off = ys ++ rest → Appends (encLoop it ys.length off) true (ys.map c).flatten := by
  induction ys with
  | nil => intro _ _ _; exact Appends.pure _
  | cons y ys ih =>
    intro off rest hd
    obtain ⟨h1, h2⟩ := drop_get hd
    simp only [List.length_cons, encLoop, List.map_cons, List.flatten_cons]
    refine (h off y h1).bind ?_
    rw [if_pos rfl]
    exact ih (off + 1) rest h2

theorem encLoopAll_list {it : Nat → M Bool} {xs : List α} (h : ∀ i x, xs[i]? = some x → Appends (it i) true (c x)) (ys : List α) :
    ∀ off rest, xs.drop off = ys ++ rest → Appends (encLoopAll it true ys.length off) true (ys.map c).flatten := by
  induction ys with
  | nil => intro _ _ _; exact Appends.pure _
  | cons y ys ih =>
    intro off rest hd
    obtain ⟨h1, h2⟩ := drop_get hd
    simp only [List.length_cons, encLoopAll, List.map_cons, List.flatten_cons]
    exact (h off y h1).bind (ih (off + 1) rest h2)

theorem block_split {xs : List α} {off n : Nat} (hn : off + n ≤ xs.length) :
    xs.drop off = (xs.drop off).take n ++ xs.drop (off + n) ∧ ((xs.drop off).take n).length = n := by
  constructor
  · rw [← List.drop_drop, List.take_append_drop]
  · simp; omega

theorem encLoop_block {it : Nat → M Bool} {xs : List α} (h : ∀ i x, xs[i]? = some x → Appends (it i) true (c x)) {off n : Nat}
    (hn : off + n ≤ xs.length) : Appends (encLoop it n off) true (((xs.map c).drop off).take n).flatten := by
  obtain ⟨h1, h2⟩ := block_split hn
  have := encLoop_list h _ off _ h1
  rw [h2] at this
  rwa [← List.map_drop, ← List.map_take]

theorem encLoopAll_block {it : Nat → M Bool} {xs : List α} (h : ∀ i x, xs[i]? = some x → Appends (it i) true (c x)) {off n : Nat}
    (hn : off + n ≤ xs.length) : Appends (encLoopAll it true n off) true (((xs.map c).drop off).take n).flatten := by
  obtain ⟨h1, h2⟩ := block_split hn
  have := encLoopAll_list h _ off _ h1
  rw [h2] at this
  rwa [← List.map_drop, ← List.map_take]

theorem decLoop_post {item : M (Bool × α)} {P : α → Prop} (hp : Post item P) (n : Nat) :
    ∀ acc, Post (decLoop item n acc) (fun l => ∃ ys : List α, l = acc ++ ys ∧ ys.length = n ∧ ∀ y ∈ ys, P y) := by
  induction n with
  | zero => intro acc; exact Post.pure (fun _ => ⟨[], by simp⟩)
  | succ n ih =>
    intro acc
    simp only [decLoop]
    refine hp.bind' (fun a ha => ?_) (fun _ => by rw [if_neg (by simp)]; exact Post.false)
    rw [if_pos rfl]
    refine (ih (acc ++ [a])).mono (fun l hl => ?_)
    obtain ⟨ys, rfl, hy, hall⟩ := hl
    refine ⟨a :: ys, by simp, by simp [hy], fun y hm => ?_⟩
    rcases List.mem_cons.1 hm with rfl | hm
    · exact ha
    · exact hall y hm

theorem decLoop_safe {item : M (Bool × α)} (hs : Safe item) (n : Nat) : ∀ acc, Safe (decLoop item n acc) := by
  induction n with
  | zero => intro acc; exact Safe.pure _ _
  | succ n ih =>
    intro acc
    simp only [decLoop]
    refine hs.bind (fun a => ?_) (fun a => ⟨acc, by rw [if_neg (by simp)]⟩)
    rw [if_pos rfl]
    exact ih _

/-- Some item of the list is bad. -/
def AnyBad (bad : α → Prop) (l : List α) : Prop := ∃ x ∈ l, bad x

theorem decLoop_bad {item : M (Bool × α)} {bad : α → Prop} {n : Nat} {acc : List α} (h : AnyBad bad acc) :
    Post (decLoop item n acc) (AnyBad bad) := by
  refine (decLoop_post (P := fun _ => True) (fun _ _ _ _ => trivial) n acc).mono (fun l hl => ?_)
  obtain ⟨ys, rfl, _⟩ := hl
  obtain ⟨x, hx, hb⟩ := h
  exact ⟨x, by simp [hx], hb⟩

theorem decLoop_list {T : Prop} {item : M (Bool × α)} {bad : α → Prop} (hsafe : T → ∀ a, bad a → Safe item) (ys : List α)
    (h : ∀ x ∈ ys, Reads item (true, x) (c x) ∧ (T → WShort item bad (c x))) :
    ∀ acc, Reads (decLoop item ys.length acc) (true, acc ++ ys) (ys.map c).flatten ∧
      (T → WShort (decLoop item ys.length acc) (AnyBad bad) (ys.map c).flatten) := by
  induction ys with
  | nil => intro acc; exact ⟨by rw [List.append_nil]; exact Reads.pure _, fun _ => WShort.nil _ _⟩
  | cons y ys ih =>
    intro acc
    obtain ⟨r1, s1⟩ := h y (by simp)
    obtain ⟨r2, s2⟩ := ih (fun x hx => h x (by simp [hx])) (acc ++ [y])
    simp only [List.length_cons, decLoop, List.map_cons, List.flatten_cons]
    rw [show acc ++ [y] ++ ys = acc ++ y :: ys by simp] at r2
    constructor
    · refine r1.bind ?_
      rw [if_pos rfl]
      exact r2
    · intro t
      refine (s1 t).bind r1 ?_ (fun a ha => ?_) (fun a => ⟨acc, by rw [if_neg (by simp)]⟩)
      · rw [if_pos rfl]
        exact s2 t
      · rw [if_pos rfl]
        exact ⟨decLoop_safe (hsafe t a ha) _ _, decLoop_bad ⟨a, by simp, ha⟩⟩

theorem decLoopAll_list {item : M (Bool × α)} (ys : List α) (h : ∀ x ∈ ys, Reads item (true, x) (c x)) :
    ∀ acc, Reads (decLoopAll item true ys.length acc) (true, acc ++ ys) (ys.map c).flatten := by
  induction ys with
  | nil => intro acc; rw [List.append_nil]; exact Reads.pure _
  | cons y ys ih =>
    intro acc
    have r2 := ih (fun x hx => h x (by simp [hx])) (acc ++ [y])
    simp only [List.length_cons, decLoopAll, List.map_cons, List.flatten_cons]
    rw [show acc ++ [y] ++ ys = acc ++ y :: ys by simp] at r2
    exact (h y (by simp)).bind r2

theorem take_block {xs : List α} {off n : Nat} : xs.take off ++ (xs.drop off).take n = xs.take (off + n) := by
  rw [List.take_add]

theorem decLoop_block {T : Prop} {item : M (Bool × α)} {bad : α → Prop} (hsafe : T → ∀ a, bad a → Safe item) {xs : List α}
    (h : ∀ x ∈ xs, Reads item (true, x) (c x) ∧ (T → WShort item bad (c x))) {off n : Nat} (hn : off + n ≤ xs.length) :
    Reads (decLoop item n (xs.take off)) (true, xs.take (off + n)) (((xs.map c).drop off).take n).flatten ∧
      (T → WShort (decLoop item n (xs.take off)) (AnyBad bad) (((xs.map c).drop off).take n).flatten) := by
  obtain ⟨_, h2⟩ := block_split hn
  have := decLoop_list hsafe ((xs.drop off).take n) (fun x hx => h x (List.mem_of_mem_drop (List.mem_of_mem_take hx))) (xs.take off)
  rwa [h2, take_block, List.map_take, List.map_drop] at this

theorem decLoopAll_block {item : M (Bool × α)} {xs : List α} (h : ∀ x ∈ xs, Reads item (true, x) (c x)) {off n : Nat}
    (hn : off + n ≤ xs.length) :
    Reads (decLoopAll item true n (xs.take off)) (true, xs.take (off + n)) (((xs.map c).drop off).take n).flatten := by
  obtain ⟨_, h2⟩ := block_split hn
  have := decLoopAll_list ((xs.drop off).take n) (fun x hx => h x (List.mem_of_mem_drop (List.mem_of_mem_take hx))) (xs.take off)
  rwa [h2, take_block, List.map_take, List.map_drop] at this

end

/-! ### variable size, encoding -/

theorem genFragStep {α β : Type} {e : M Unit} {f : M Bool} {X : Bool → M α} {K : α → M β} {b : β} {w0 w1 w2 : List Bool}
    (h0 : Appends e () w0) (h1 : Appends f true w1) (h2 : Appends (X true >>= K) b w2) :
    Appends ((do e; let ret ← f; X ret) >>= K) b (w0 ++ (w1 ++ w2)) := by
  rw [bind_assoc]
  refine h0.bind ?_
  rw [bind_assoc]
  exact h1.bind h2

theorem genFragEncodeLoop_big {blk : Bool → (off n : Nat) → M Bool} {fuel rem off : Nat} {ret : Bool} (h : rem ≥ 0x4000) :
    genFragEncodeLoop blk (fuel + 1) ret rem off = (do
      encodeConstraintWholeNumber (blockFor rem).2 0 0xFF
      let ret ← blk ret off (blockFor rem).1
      genFragEncodeLoop blk fuel ret (rem - (blockFor rem).1) (off + (blockFor rem).1)) := by
  simp only [genFragEncodeLoop]
  rw [if_pos h]

theorem genFragEncodeLoop_small {blk : Bool → (off n : Nat) → M Bool} {fuel rem off : Nat} {ret : Bool} (h : ¬ rem ≥ 0x4000) :
    genFragEncodeLoop blk (fuel + 1) ret rem off = pure (ret, rem, off) := by
  simp only [genFragEncodeLoop]
  rw [if_neg h]

theorem genFragBig {β : Type} {blk : Bool → (off n : Nat) → M Bool} {fuel rem off B : Nat} {I : Int} {K : Bool × Nat × Nat → M β} {b : β}
    {w0 w1 w2 : List Bool} (h : rem ≥ 0x4000) (hB : (blockFor rem).1 = B) (hI : (blockFor rem).2 = I)
    (h0 : Appends (encodeConstraintWholeNumber I 0 0xFF) () w0) (h1 : Appends (blk true off B) true w1)
    (h2 : Appends (genFragEncodeLoop blk fuel true (rem - B) (off + B) >>= K) b w2) :
    Appends (genFragEncodeLoop blk (fuel + 1) true rem off >>= K) b (w0 ++ (w1 ++ w2)) := by
  rw [genFragEncodeLoop_big h, hB, hI]
  exact genFragStep h0 h1 h2

theorem genFragEncode_aux {blk : Bool → (off n : Nat) → M Bool} {l : List (List Bool)}
    (hblk : ∀ off n, off % 16384 = 0 → off + n ≤ l.length → Appends (blk true off n) true ((l.drop off).take n).flatten)
    (fuel : Nat) : ∀ off, off % 16384 = 0 → off ≤ l.length → l.length - off < fuel →
    Appends (do
      let r ← genFragEncodeLoop blk fuel true (l.length - off) off
      fragLastLength r.2.1
      blk r.1 r.2.2 r.2.1) true (fragmentedCode (l.drop off)) := by
  induction fuel with
  | zero => intro off _ _ h; omega
  | succ fuel ih =>
    intro off hoff hle hfuel
    have hl : (l.drop off).length = l.length - off := by simp
    by_cases h : l.length - off ≥ 0x4000
    · obtain ⟨m, hm⟩ : ∃ m, m = min 4 ((l.length - off) / 16384) := ⟨_, rfl⟩
      have hb := hblk off (m * 16384) hoff (by omega)
      have := ih (off + m * 16384) (by omega) (by omega) (by omega)
      rw [show l.length - (off + m * 16384) = l.length - off - m * 16384 by omega] at this
      rw [frag_large (m := m) (by rw [hl]; exact h) (by rw [hl]; exact hm), List.drop_drop]
      exact genFragBig h (by rw [blockFor_eq h hm]) (by rw [blockFor_eq h hm]) (lengthOctet_appends (n := 0xC0 + m) (by omega)) hb this
    · rw [genFragEncodeLoop_small h, pure_bind]
      have hb := hblk off (l.length - off) hoff (by omega)
      rw [List.take_of_length_le (by simp)] at hb
      have hs := (fragLastLength_appends (n := l.length - off) (by omega)).bind (g := fun _ => blk true off (l.length - off)) hb
      by_cases h1 : l.length - off < 128
      · rw [frag_small (by rw [hl]; exact h1), hl]
        rw [if_pos h1] at hs; exact hs
      · rw [frag_medium (by rw [hl]; omega) (by rw [hl]; omega), hl]
        rw [if_neg h1] at hs; exact hs

theorem genFragEncode_appends {blk : Bool → (off n : Nat) → M Bool} {l : List (List Bool)}
    (hblk : ∀ off n, off % 16384 = 0 → off + n ≤ l.length → Appends (blk true off n) true ((l.drop off).take n).flatten) :
    Appends (genFragEncode blk l.length) true (fragmentedCode l) := by
  have := genFragEncode_aux hblk (l.length + 1) 0 rfl (by omega) (by omega)
  exact this

/-! ### variable size, decoding -/

/-- What happens behind the first length octet. -/
def genFragDecodeRest {σ : Type} (blk : (off n : Nat) → σ → M (Bool × σ)) (lo hi fuel rem off : Nat) (st : σ) : M (Bool × σ) := do
    let r ← fragDecodeLoop blk hi fuel rem off st
    if r.1 then do
      let l ← fragDecodeLast r.2.1
      if l.1 then
        if r.2.2.1 + l.2 ≤ hi then do
          let p ← blk r.2.2.1 l.2 r.2.2.2
          if p.1 then
            if lo ≤ r.2.2.1 + l.2 ∧ r.2.2.1 + l.2 ≤ hi then pure (true, p.2) else pure (false, p.2)
          else pure (false, p.2)
        else pure (false, r.2.2.2)
      else pure (false, r.2.2.2)
    else pure (false, r.2.2.2)

theorem genFragDecodeRest_safe {σ : Type} {blk : (off n : Nat) → σ → M (Bool × σ)} {lo hi : Nat} {I : Nat → σ → Prop}
    (hblk : ∀ off n st, off % 16384 = 0 → off + n ≤ hi → I off st → Safe (blk off n st) ∧ Post (blk off n st) (I (off + n)))
    (fuel rem off : Nat) (st : σ) (hoff : off % 16384 = 0) (hle : off ≤ hi) (hI : I off st) (hf : hi - off < fuel) :
    Safe (genFragDecodeRest blk lo hi fuel rem off st) ∧ Post (genFragDecodeRest blk lo hi fuel rem off st) (fun st => ∃ n, I n st) := by
  obtain ⟨ks, kp⟩ := fragDecodeLoop_safe hblk fuel rem off st hoff hle hI hf
  unfold genFragDecodeRest
  constructor
  · refine ks.bindP kp (fun a ha => ?_) (fun q => ⟨_, by rw [if_neg (by simp)]⟩)
    rw [if_pos rfl]
    refine (fragDecodeLast_safe _).bind (fun q => ?_) (fun q => ⟨_, by rw [if_neg (by simp)]⟩)
    rw [if_pos rfl]
    refine Safe.ite (fun h => ?_) (fun _ => Safe.pure _ _)
    refine (hblk _ _ _ ha.1 h ha.2.2).1.bind (fun q => ?_) (fun q => ⟨_, by rw [if_neg (by simp)]⟩)
    rw [if_pos rfl]
    exact Safe.ite (fun h => Safe.pure _ _) (fun _ => Safe.pure _ _)
  · refine kp.bind' (fun a ha => ?_) (fun _ => by rw [if_neg (by simp)]; exact Post.false)
    rw [if_pos rfl]
    refine Post.bind (fun l => Post.ite (fun _ => Post.ite (fun h => ?_) (fun _ => Post.false)) (fun _ => Post.false))
    refine (hblk _ _ _ ha.1 h ha.2.2).2.bind' (fun p hp => ?_) (fun _ => by rw [if_neg (by simp)]; exact Post.false)
    rw [if_pos rfl]
    exact Post.ite (fun _ => Post.pure (fun _ => ⟨_, hp⟩)) (fun _ => Post.false)

theorem genFragDecode_safe {σ : Type} {blk : (off n : Nat) → σ → M (Bool × σ)} {lo hi : Nat} {I : Nat → σ → Prop} {st : σ}
    (hblk : ∀ off n st, off % 16384 = 0 → off + n ≤ hi → I off st → Safe (blk off n st) ∧ Post (blk off n st) (I (off + n))) (hI : I 0 st) :
    Safe (genFragDecode blk lo hi st) ∧ Post (genFragDecode blk lo hi st) (fun st => ∃ n, I n st) := by
  have key := fun q => genFragDecodeRest_safe (lo := lo) hblk (hi + 1) q 0 st rfl (by omega) hI (by omega)
  constructor
  · refine lengthOctet_safe.bind (fun q => ?_) (fun q => ⟨st, by rw [if_neg (by simp)]⟩)
    rw [if_pos rfl]
    exact (key _).1
  · refine Post.bind (fun q => Post.ite (fun _ => (key _).2) (fun _ => Post.false))

theorem genFragDecode_aux {σ : Type} {T : Prop} {blk : (off n : Nat) → σ → M (Bool × σ)} {lo hi : Nat} {l : List (List Bool)} {S : Nat → σ}
    {bad : σ → Prop} (hsafe : T → ∀ off n st, bad st → Safe (blk off n st) ∧ Post (blk off n st) bad)
    (h1 : lo ≤ l.length) (hmax : l.length ≤ hi)
    (hblk : ∀ off n, off % 16384 = 0 → off + n ≤ l.length →
      Reads (blk off n (S off)) (true, S (off + n)) ((l.drop off).take n).flatten ∧
      (T → WShort (blk off n (S off)) bad ((l.drop off).take n).flatten))
    (fuel : Nat) : ∀ off, off % 16384 = 0 → off ≤ l.length → hi - off < fuel →
    ∃ b w, b < 256 ∧ fragmentedCode (l.drop off) = bitsMsb 8 b ++ w ∧
      Reads (genFragDecodeRest blk lo hi fuel b off (S off)) (true, S l.length) w ∧
      (T → WShort (genFragDecodeRest blk lo hi fuel b off (S off)) bad w) := by
  induction fuel with
  | zero => intro off _ _ h; omega
  | succ fuel ih =>
    intro off hoff hle hfuel
    have hl : (l.drop off).length = l.length - off := by simp
    by_cases h : l.length - off ≥ 0x4000
    · obtain ⟨m, hm⟩ : ∃ m, m = min 4 ((l.length - off) / 16384) := ⟨_, rfl⟩
      obtain ⟨b, w, hb, hw, hR, hS⟩ := ih (off + m * 16384) (by omega) (by omega) (by omega)
      rw [frag_large (m := m) (by rw [hl]; exact h) (by rw [hl]; exact hm)]
      obtain ⟨e1, e2⟩ := blockSizeOf_eq (m := m) (by omega) (by omega)
      refine ⟨0xC0 + m, _, by omega, rfl, ?_⟩
      obtain ⟨rb, sb⟩ := hblk off (m * 16384) hoff (by omega)
      obtain ⟨ro, so⟩ := lengthOctet_reads (n := b) (by omega)
      rw [List.drop_drop, hw]
      have hun : genFragDecodeRest blk lo hi (fuel + 1) (0xC0 + m) off (S off) = (do
          let p ← blk off (m * 16384) (S off)
          let r ← (if p.1 then do
            let q ← decodeConstraintWholeNumber 0 0xFF
            if q.1 then fragDecodeLoop blk hi fuel q.2.toNat (off + m * 16384) p.2
            else pure (false, (q.2.toNat, off + m * 16384, p.2))
          else pure (false, (0xC0 + m, off, p.2)))
          if r.1 then do
            let l ← fragDecodeLast r.2.1
            if l.1 then
              if r.2.2.1 + l.2 ≤ hi then do
                let p ← blk r.2.2.1 l.2 r.2.2.2
                if p.1 then
                  if lo ≤ r.2.2.1 + l.2 ∧ r.2.2.1 + l.2 ≤ hi then pure (true, p.2) else pure (false, p.2)
                else pure (false, p.2)
              else pure (false, r.2.2.2)
            else pure (false, r.2.2.2)
          else pure (false, r.2.2.2)) := by
        unfold genFragDecodeRest
        simp only [fragDecodeLoop]
        rw [if_pos e2, e1]
        simp only
        rw [if_pos (by omega)]
        simp only [bind_assoc]
      rw [hun]
      constructor
      · refine rb.bind ?_
        simp only [if_pos, bind_assoc]
        refine ro.bind ?_
        rw [if_pos rfl]
        exact hR
      · intro t
        refine (sb t).bind rb ?_ (fun a ha => ?_) (fun a => ⟨a, by simp⟩)
        · simp only [if_pos, bind_assoc]
          refine (so.weak (fun _ => False)).bind ro ?_ (fun _ h => h.elim) (fun a => ⟨S (off + m * 16384), by simp⟩)
          rw [if_pos rfl]
          exact hS t
        · simp only [if_pos, bind_assoc]
          have key := fun q => genFragDecodeRest_safe (I := fun _ => bad) (lo := lo) (hi := hi) (fun off n st _ _ h => hsafe t off n st h) fuel q (off + m * 16384) a
            (by omega) (by omega) ha (by omega)
          constructor
          · refine lengthOctet_safe.bind (fun q => ?_) (fun q => ⟨a, by simp⟩)
            rw [if_pos rfl]
            exact (key _).1
          · refine Post.bind (fun q => ?_)
            obtain ⟨q1, q2⟩ := q
            cases q1 with
            | true => rw [if_pos rfl]; exact (key _).2.mono (fun _ ⟨_, h⟩ => h)
            | false => simp only [Bool.false_eq_true, if_false, pure_bind]; exact Post.false
    · obtain ⟨b, hb, hb2, w, hw, hR, hS⟩ := fragDecodeLast_reads (n := l.length - off) (by omega)
      obtain ⟨rb, sb⟩ := hblk off (l.length - off) hoff (by omega)
      rw [List.take_of_length_le (by simp), show off + (l.length - off) = l.length by omega] at rb
      rw [List.take_of_length_le (by simp)] at sb
      have hcode : fragmentedCode (l.drop off) = bitsMsb 8 b ++ (w ++ (l.drop off).flatten) := by
        rw [← List.append_assoc, ← hw]
        by_cases h1 : l.length - off < 128
        · rw [frag_small (by rw [hl]; exact h1), hl, if_pos h1]
        · rw [frag_medium (by rw [hl]; omega) (by rw [hl]; omega), hl, if_neg h1]
      refine ⟨b, _, hb, hcode, ?_⟩
      unfold genFragDecodeRest
      simp only [fragDecodeLoop]
      rw [if_neg hb2, pure_bind, if_pos rfl]
      constructor
      · refine hR.bind ?_
        rw [if_pos rfl, if_pos (by show off + (l.length - off) ≤ hi; omega), ← List.append_nil (List.flatten _)]
        refine rb.bind ?_
        rw [if_pos rfl, if_pos (by show lo ≤ off + (l.length - off) ∧ off + (l.length - off) ≤ hi; omega)]
        exact Reads.pure _
      · intro t
        refine (hS.weak (fun _ => False)).bind hR ?_ (fun _ h => h.elim) (fun a => ⟨S off, by simp⟩)
        rw [if_pos rfl, if_pos (by show off + (l.length - off) ≤ hi; omega), ← List.append_nil (List.flatten _)]
        refine (sb t).bind rb (WShort.nil _ _) (fun a ha => ?_) (fun a => ⟨a, by simp⟩)
        rw [if_pos rfl]
        exact ⟨Safe.ite (fun _ => Safe.pure _ _) (fun _ => Safe.pure _ _), Post.ite (fun _ => Post.pure (fun _ => ha)) (fun _ => Post.false)⟩

theorem genFragDecode_reads {σ : Type} {T : Prop} {blk : (off n : Nat) → σ → M (Bool × σ)} {lo hi : Nat} {l : List (List Bool)} {S : Nat → σ}
    {bad : σ → Prop} (hsafe : T → ∀ off n st, bad st → Safe (blk off n st) ∧ Post (blk off n st) bad)
    (h1 : lo ≤ l.length) (hmax : l.length ≤ hi)
    (hblk : ∀ off n, off % 16384 = 0 → off + n ≤ l.length →
      Reads (blk off n (S off)) (true, S (off + n)) ((l.drop off).take n).flatten ∧
      (T → WShort (blk off n (S off)) bad ((l.drop off).take n).flatten)) :
    Reads (genFragDecode blk lo hi (S 0)) (true, S l.length) (fragmentedCode l) ∧
    (T → WShort (genFragDecode blk lo hi (S 0)) bad (fragmentedCode l)) := by
  obtain ⟨b, w, hb, hw, hR, hS⟩ := genFragDecode_aux hsafe h1 hmax hblk (hi + 1) 0 rfl (by omega) (by omega)
  obtain ⟨ro, so⟩ := lengthOctet_reads (n := b) (by omega)
  rw [List.drop_zero] at hw
  rw [hw]
  constructor
  · refine ro.bind ?_
    rw [if_pos rfl]
    exact hR
  · intro t
    refine (so.weak (fun _ => False)).bind ro ?_ (fun _ h => h.elim) (fun a => ⟨S 0, by rw [if_neg (by simp)]⟩)
    rw [if_pos rfl]
    exact hS t

/-! ### fixed size -/

/-- The fragments without the octet that ends them. -/
def fixCode (l : List (List Bool)) : List Bool :=
  if l.length < 16384 then (if l.length = 0 then [] else fragmentedCode l)
  else
    bitsMsb 8 (0xC0 + min 4 (l.length / 16384)) ++ ((l.take (min 4 (l.length / 16384) * 16384)).flatten ++
      fixCode (l.drop (min 4 (l.length / 16384) * 16384)))
termination_by l.length
decreasing_by
  simp only [List.length_drop]
  omega

theorem fixCode_eq (n : Nat) : ∀ l : List (List Bool), l.length = n →
    fragmentedCode l = if n % 16384 = 0 then fixCode l ++ bitsMsb 8 0 else fixCode l := by
  induction n using Nat.strongRecOn with
  | _ n ih =>
    intro l hl
    rw [fixCode, hl]
    by_cases h : n < 16384
    · rw [if_pos h]
      by_cases h0 : n = 0
      · subst h0
        have : l = [] := List.length_eq_zero_iff.1 hl
        subst this
        simp only [Nat.zero_mod, if_pos, List.nil_append]
        rw [frag_small (by simp)]; simp
      · rw [if_neg h0, if_neg (by omega)]
    · rw [if_neg h]
      obtain ⟨m, hm⟩ : ∃ m, m = min 4 (n / 16384) := ⟨_, rfl⟩
      rw [← hm, frag_large (m := m) (by omega) (by rw [hl]; exact hm),
        ih (n - m * 16384) (by omega) (l.drop (m * 16384)) (by rw [List.length_drop, hl])]
      by_cases h0 : n % 16384 = 0
      · rw [if_pos (by omega), if_pos h0]; simp only [List.append_assoc]
      · rw [if_neg (by omega), if_neg h0]

/-- The code of the specification for a fixed size. -/
theorem sizedCodeGen_fix {l : List (List Bool)} {n : Nat} (hl : l.length = n) (h : 65536 ≤ n) : sizedCodeGen false n n l = fixCode l := by
  have e := fixCode_eq n l hl
  have hs : sizedCode n n l = fragmentedCode l := by unfold sizedCode; rw [if_neg (by omega)]
  unfold sizedCodeGen
  rw [hs]
  by_cases h0 : n % 16384 = 0
  · rw [if_pos (by simp [h, h0]), e, if_pos h0]
    simp
  · rw [if_neg (by simp [h0]), e, if_neg h0]

theorem fixCode_large {l : List (List Bool)} {m : Nat} (h : 16384 ≤ l.length) (hm : m = min 4 (l.length / 16384)) :
    fixCode l = bitsMsb 8 (0xC0 + m) ++ ((l.take (m * 16384)).flatten ++ fixCode (l.drop (m * 16384))) := by
  rw [fixCode, if_neg (by omega), ← hm]

theorem fragSmall_eq (n m : Nat) (hm : m = n % 65536 / 16384) :
    fragSmall n = ((if m = 0 then [] else [(m * 16384, ((0xC0 + m : Nat) : Int))]), n % 16384) := by
  unfold fragSmall
  have h : m = 0 ∧ n % 65536 < 0x4000 ∨ m = 1 ∧ 0x4000 ≤ n % 65536 ∧ n % 65536 < 0x8000 ∨
      m = 2 ∧ 0x8000 ≤ n % 65536 ∧ n % 65536 < 0xC000 ∨ m = 3 ∧ 0xC000 ≤ n % 65536 := by omega
  rcases h with h | h | h | h
  · have a1 : ¬ (n % 65536 ≥ 0xC000) := by omega
    have a2 : ¬ (n % 65536 ≥ 0x8000) := by omega
    have a3 : ¬ (n % 65536 ≥ 0x4000) := by omega
    have a4 : n % 65536 = n % 16384 := by omega
    simp only [a1, a2, a3, decide_false, Bool.false_eq_true, if_false, if_true, h.1, List.append_nil]
    rw [a4]
  · have a1 : ¬ (n % 65536 ≥ 0xC000) := by omega
    have a2 : ¬ (n % 65536 ≥ 0x8000) := by omega
    have a3 : (n % 65536 ≥ 0x4000) := by omega
    have a4 : n % 65536 - 0x4000 = n % 16384 := by omega
    simp only [a1, a2, a3, decide_false, decide_true, Bool.false_eq_true, if_false, if_true, h.1, List.nil_append, List.append_nil]
    rw [a4]; rfl
  · have a1 : ¬ (n % 65536 ≥ 0xC000) := by omega
    have a2 : (n % 65536 ≥ 0x8000) := by omega
    have a3 : ¬ (n % 65536 - 0x8000 ≥ 0x4000) := by omega
    have a4 : n % 65536 - 0x8000 = n % 16384 := by omega
    simp only [a1, a2, a3, decide_false, decide_true, Bool.false_eq_true, if_false, if_true, h.1, List.nil_append, List.append_nil]
    rw [a4]; rfl
  · have a1 : (n % 65536 ≥ 0xC000) := by omega
    have a2 : ¬ (n % 65536 - 0xC000 ≥ 0x8000) := by omega
    have a3 : ¬ (n % 65536 - 0xC000 ≥ 0x4000) := by omega
    have a4 : n % 65536 - 0xC000 = n % 16384 := by omega
    simp only [a1, a2, a3, decide_false, decide_true, Bool.false_eq_true, if_false, if_true, h.1, List.nil_append, List.append_nil]
    rw [a4]; rfl

theorem fixTail_appends {blk : Bool → (off n : Nat) → M Bool} {l : List (List Bool)}
    (hblk : ∀ off n, off % 16384 = 0 → off + n ≤ l.length → Appends (blk true off n) true ((l.drop off).take n).flatten)
    {off : Nat} (hoff : off % 16384 = 0) (hle : off ≤ l.length) (hlt : l.length - off < 16384) :
    Appends (fixRestEncode blk (l.length - off) [] true off) true (fixCode (l.drop off)) := by
  have hl : (l.drop off).length = l.length - off := by simp
  simp only [fixRestEncode]
  rw [if_pos trivial, fixCode, hl, if_pos hlt]
  by_cases h0 : l.length - off = 0
  · rw [if_neg (by omega), if_pos h0]; exact Appends.pure _
  · rw [if_pos (by omega), if_neg h0]
    have hb := hblk off (l.length - off) hoff (by omega)
    rw [List.take_of_length_le (by simp)] at hb
    have hs := (fragLastLength_appends (n := l.length - off) (by omega)).bind (g := fun _ => blk true off (l.length - off)) hb
    by_cases h1 : l.length - off < 128
    · rw [frag_small (by rw [hl]; exact h1), hl]
      rw [if_pos h1] at hs; exact hs
    · rw [frag_medium (by rw [hl]; omega) (by rw [hl]; omega), hl]
      rw [if_neg h1] at hs; exact hs

theorem fixRest_appends {blk : Bool → (off n : Nat) → M Bool} {l : List (List Bool)}
    (hblk : ∀ off n, off % 16384 = 0 → off + n ≤ l.length → Appends (blk true off n) true ((l.drop off).take n).flatten)
    {off : Nat} (hoff : off % 65536 = 0) (hle : off ≤ l.length) (hlt : l.length - off < 65536) :
    Appends (fixRestEncode blk (fragSmall l.length).2 (fragSmall l.length).1 true off) true (fixCode (l.drop off)) := by
  have hl : (l.drop off).length = l.length - off := by simp
  obtain ⟨m, hm⟩ : ∃ m, m = l.length % 65536 / 16384 := ⟨_, rfl⟩
  rw [fragSmall_eq _ _ hm]
  by_cases h0 : m = 0
  · simp only [if_pos h0]
    rw [show l.length % 16384 = l.length - off by omega]
    exact fixTail_appends hblk (by omega) hle (by omega)
  · simp only [if_neg h0]
    rw [fixRestEncode, if_pos rfl, fixCode_large (m := m) (by omega) (by omega), List.drop_drop]
    refine (lengthOctet_appends (n := 0xC0 + m) (by omega)).bind ?_
    refine (hblk off (m * 16384) (by omega) (by omega)).bind ?_
    rw [show l.length % 16384 = l.length - (off + m * 16384) by omega]
    exact fixTail_appends hblk (by omega) (by omega) (by omega)

theorem fixFragEncode_aux {blk : Bool → (off n : Nat) → M Bool} {l : List (List Bool)}
    (hblk : ∀ off n, off % 16384 = 0 → off + n ≤ l.length → Appends (blk true off n) true ((l.drop off).take n).flatten)
    (k : Nat) : ∀ off, off % 65536 = 0 → off + k * 65536 ≤ l.length → l.length - (off + k * 65536) < 65536 →
    Appends (do
      let r ← fix64Encode blk k true off
      fixRestEncode blk (fragSmall l.length).2 (fragSmall l.length).1 r.1 r.2) true (fixCode (l.drop off)) := by
  induction k with
  | zero =>
    intro off h1 h2 h3
    simp only [fix64Encode, pure_bind]
    exact fixRest_appends hblk h1 (by omega) (by omega)
  | succ k ih =>
    intro off h1 h2 h3
    have hl : (l.drop off).length = l.length - off := by simp
    simp only [fix64Encode]
    rw [fixCode_large (m := 4) (by omega) (by omega), List.drop_drop, bind_assoc]
    refine (lengthOctet_appends (n := 0xC4) (by omega)).bind ?_
    rw [bind_assoc]
    refine (hblk off 65536 (by omega) (by omega)).bind ?_
    exact ih (off + 65536) (by omega) (by omega) (by omega)

theorem fixFragEncode_appends {blk : Bool → (off n : Nat) → M Bool} {l : List (List Bool)}
    (hblk : ∀ off n, off % 16384 = 0 → off + n ≤ l.length → Appends (blk true off n) true ((l.drop off).take n).flatten) :
    Appends (fixFragEncode blk l.length) true (fixCode l) := by
  have := fixFragEncode_aux hblk (l.length / 65536) 0 rfl (by omega) (by omega)
  exact this

/-- The remaining items of a fixed size, decoding the determinant. -/
theorem fixRemDecode_reads {σ : Type} {T : Prop} {blk : (off n : Nat) → σ → M (Bool × σ)} {n off : Nat} {st st' : σ} {w : List Bool}
    (h : n < 16384) (hb : Reads (blk off n st) (true, st') w ∧ (T → Short (blk off n st) w)) :
    Reads (fixRemDecode blk n off st) (true, st') ((if n < 128 then bitsMsb 8 n else true :: bitsMsb 15 n) ++ w) ∧
    (T → Short (fixRemDecode blk n off st) ((if n < 128 then bitsMsb 8 n else true :: bitsMsb 15 n) ++ w)) := by
  unfold fixRemDecode
  by_cases h1 : n < 128
  · rw [if_pos h1, if_pos (by omega)]
    obtain ⟨r, s⟩ := lengthOctet_reads (n := n) (by omega)
    simp only [bind_assoc, pure_bind]
    constructor
    · refine r.bind ?_
      rw [if_pos (by simp)]
      exact hb.1
    · intro t
      refine s.bind r ?_ (fun a => ⟨st, by rw [if_neg (by simp)]⟩)
      rw [if_pos (by simp)]
      exact hb.2 t
  · rw [if_neg h1, if_neg (by omega)]
    have e : true :: bitsMsb 15 n = constrainedCode 0 0xFFFF ((0x8000 + n : Nat) : Int) := by
      unfold constrainedCode
      have : bitLen ((0xFFFF : Int) - 0).toNat = 16 := by decide
      rw [this, Int.sub_zero, Int.toNat_natCast]
      have e1 : (0x8000 + n).testBit 15 = true := by
        rw [show (0x8000 : Nat) = 2 ^ 15 from rfl, Nat.testBit_two_pow_add_eq, Nat.testBit_lt_two_pow (by omega)]; rfl
      have e2 : bitsMsb 15 (0x8000 + n) = bitsMsb 15 n := by
        rw [← bitsMsb_mod 15 (0x8000 + n), ← bitsMsb_mod 15 n]
        congr 1
        omega
      have := bitsMsb_succ 15 (0x8000 + n)
      rw [e1, e2] at this
      exact this.symm
    obtain ⟨r, s⟩ := decodeConstraintWholeNumber_reads (v := ((0x8000 + n : Nat) : Int)) (lo := 0) (hi := 0xFFFF)
      (by omega) (by omega) (by omega) (by omega) (by omega)
    rw [← e] at r s
    have hc : (true && decide (0x8000 &&& (((0x8000 + n : Nat) : Int)).toNat > 0) && decide (0x7FFF &&& (((0x8000 + n : Nat) : Int)).toNat = n)) = true := by
      rw [Int.toNat_natCast]
      have a1 : 0x7FFF &&& (0x8000 + n) = n := by
        rw [Nat.and_comm, show (0x7FFF : Nat) = 2 ^ 15 - 1 from rfl, Nat.and_two_pow_sub_one_eq_mod]; omega
      have a2 : 0x8000 &&& (0x8000 + n) > 0 := by
        rw [Nat.and_comm, show (0x8000 : Nat) = 2 ^ 15 from rfl]
        have : ((2 ^ 15 + n) &&& 2 ^ 15).testBit 15 = true := by
          rw [Nat.testBit_and, Nat.testBit_two_pow_add_eq, Nat.testBit_lt_two_pow (by omega), Nat.testBit_two_pow_self]; rfl
        rcases Nat.eq_zero_or_pos ((2 ^ 15 + n) &&& 2 ^ 15) with h | h
        · rw [h] at this; simp at this
        · exact h
      rw [decide_eq_true a1, decide_eq_true a2]; rfl
    simp only [bind_assoc, pure_bind]
    constructor
    · refine r.bind ?_
      rw [if_pos hc]
      exact hb.1
    · intro t
      refine s.bind r ?_ (fun a => ⟨st, by rw [if_neg (by simp)]⟩)
      rw [if_pos hc]
      exact hb.2 t

theorem fixTail_reads {σ : Type} {T : Prop} {blk : (off n : Nat) → σ → M (Bool × σ)} {l : List (List Bool)} {S : Nat → σ}
    (hblk : ∀ off n, off % 16384 = 0 → off + n ≤ l.length →
      Reads (blk off n (S off)) (true, S (off + n)) ((l.drop off).take n).flatten ∧
      (T → Short (blk off n (S off)) ((l.drop off).take n).flatten))
    {off : Nat} (hoff : off % 16384 = 0) (hle : off ≤ l.length) (hlt : l.length - off < 16384) :
    Reads (fixRestDecode blk (l.length - off) [] off (S off)) (true, S l.length) (fixCode (l.drop off)) ∧
    (T → Short (fixRestDecode blk (l.length - off) [] off (S off)) (fixCode (l.drop off))) := by
  have hl : (l.drop off).length = l.length - off := by simp
  simp only [fixRestDecode]
  rw [fixCode, hl, if_pos hlt]
  by_cases h0 : l.length - off = 0
  · rw [if_neg (by omega), if_pos h0, show off = l.length by omega]
    exact ⟨Reads.pure _, fun _ => Short.nil _⟩
  · rw [if_pos (by omega), if_neg h0]
    obtain ⟨rb, sb⟩ := hblk off (l.length - off) hoff (by omega)
    rw [List.take_of_length_le (by simp), show off + (l.length - off) = l.length by omega] at rb
    rw [List.take_of_length_le (by simp)] at sb
    have := fixRemDecode_reads hlt ⟨rb, sb⟩
    by_cases h1 : l.length - off < 128
    · rw [frag_small (by rw [hl]; exact h1), hl]
      rw [if_pos h1] at this; exact this
    · rw [frag_medium (by rw [hl]; omega) (by rw [hl]; omega), hl]
      rw [if_neg h1] at this; exact this

theorem fixRest_reads {σ : Type} {T : Prop} {blk : (off n : Nat) → σ → M (Bool × σ)} {l : List (List Bool)} {S : Nat → σ}
    (hblk : ∀ off n, off % 16384 = 0 → off + n ≤ l.length →
      Reads (blk off n (S off)) (true, S (off + n)) ((l.drop off).take n).flatten ∧
      (T → Short (blk off n (S off)) ((l.drop off).take n).flatten))
    {off : Nat} (hoff : off % 65536 = 0) (hle : off ≤ l.length) (hlt : l.length - off < 65536) :
    Reads (fixRestDecode blk (fragSmall l.length).2 (fragSmall l.length).1 off (S off)) (true, S l.length) (fixCode (l.drop off)) ∧
    (T → Short (fixRestDecode blk (fragSmall l.length).2 (fragSmall l.length).1 off (S off)) (fixCode (l.drop off))) := by
  have hl : (l.drop off).length = l.length - off := by simp
  obtain ⟨m, hm⟩ : ∃ m, m = l.length % 65536 / 16384 := ⟨_, rfl⟩
  rw [fragSmall_eq _ _ hm]
  by_cases h0 : m = 0
  · simp only [if_pos h0]
    rw [show l.length % 16384 = l.length - off by omega]
    exact fixTail_reads hblk (by omega) hle (by omega)
  · simp only [if_neg h0]
    simp only [fixRestDecode]
    rw [fixCode_large (m := m) (by omega) (by omega), List.drop_drop]
    obtain ⟨r, s⟩ := lengthOctet_reads (n := 0xC0 + m) (by omega)
    obtain ⟨rb, sb⟩ := hblk off (m * 16384) (by omega) (by omega)
    obtain ⟨rt, st⟩ := fixTail_reads hblk (off := off + m * 16384) (by omega) (by omega) (by omega)
    rw [show l.length % 16384 = l.length - (off + m * 16384) by omega]
    constructor
    · refine r.bind ?_
      rw [if_pos ⟨rfl, rfl⟩]
      refine rb.bind ?_
      rw [if_pos rfl]
      exact rt
    · intro t
      refine s.bind r ?_ (fun a => ⟨S off, by rw [if_neg (by simp)]⟩)
      rw [if_pos ⟨rfl, rfl⟩]
      refine (sb t).bind rb ?_ (fun a => ⟨a, by rw [if_neg (by simp)]⟩)
      rw [if_pos rfl]
      exact st t

theorem fixFragDecode_aux {σ : Type} {T : Prop} {blk : (off n : Nat) → σ → M (Bool × σ)} {l : List (List Bool)} {S : Nat → σ}
    (hblk : ∀ off n, off % 16384 = 0 → off + n ≤ l.length →
      Reads (blk off n (S off)) (true, S (off + n)) ((l.drop off).take n).flatten ∧
      (T → Short (blk off n (S off)) ((l.drop off).take n).flatten))
    (k : Nat) : ∀ off, off % 65536 = 0 → off + k * 65536 ≤ l.length → l.length - (off + k * 65536) < 65536 →
    Reads (do
      let r ← fix64Decode blk k off (S off)
      if r.1 then fixRestDecode blk (fragSmall l.length).2 (fragSmall l.length).1 r.2.1 r.2.2 else pure (false, r.2.2))
        (true, S l.length) (fixCode (l.drop off)) ∧
    (T → Short (do
      let r ← fix64Decode blk k off (S off)
      if r.1 then fixRestDecode blk (fragSmall l.length).2 (fragSmall l.length).1 r.2.1 r.2.2 else pure (false, r.2.2))
        (fixCode (l.drop off))) := by
  induction k with
  | zero =>
    intro off h1 h2 h3
    simp only [fix64Decode, pure_bind]
    rw [if_pos trivial]
    exact fixRest_reads hblk h1 (by omega) (by omega)
  | succ k ih =>
    intro off h1 h2 h3
    have hl : (l.drop off).length = l.length - off := by simp
    simp only [fix64Decode]
    rw [fixCode_large (m := 4) (by omega) (by omega), List.drop_drop, bind_assoc]
    obtain ⟨r, s⟩ := lengthOctet_reads (n := 0xC4) (by omega)
    obtain ⟨rb, sb⟩ := hblk off 65536 (by omega) (by omega)
    obtain ⟨rt, st⟩ := ih (off + 65536) (by omega) (by omega) (by omega)
    constructor
    · refine r.bind ?_
      rw [if_pos ⟨rfl, rfl⟩, bind_assoc]
      refine rb.bind ?_
      rw [if_pos rfl]
      exact rt
    · intro t
      refine s.bind r ?_ (fun a => ⟨S off, by rw [if_neg (by simp), pure_bind, if_neg (by simp)]⟩)
      rw [if_pos ⟨rfl, rfl⟩, bind_assoc]
      refine (sb t).bind rb ?_ (fun a => ⟨a, by rw [if_neg (by simp), pure_bind, if_neg (by simp)]⟩)
      rw [if_pos rfl]
      exact st t

theorem fixFragDecode_reads {σ : Type} {T : Prop} {blk : (off n : Nat) → σ → M (Bool × σ)} {l : List (List Bool)} {S : Nat → σ}
    (hblk : ∀ off n, off % 16384 = 0 → off + n ≤ l.length →
      Reads (blk off n (S off)) (true, S (off + n)) ((l.drop off).take n).flatten ∧
      (T → Short (blk off n (S off)) ((l.drop off).take n).flatten)) :
    Reads (fixFragDecode blk l.length (S 0)) (true, S l.length) (fixCode l) ∧
    (T → Short (fixFragDecode blk l.length (S 0)) (fixCode l)) := by
  have := fixFragDecode_aux hblk (l.length / 65536) 0 rfl (by omega) (by omega)
  exact this

/-! ### any size of 64K and more -/

theorem fragAnyEncode_appends {blk : Bool → (off n : Nat) → M Bool} {l : List (List Bool)} {lo hi : Nat} (h1 : lo ≤ l.length)
    (h2 : l.length ≤ hi) (h : ¬ hi < 65536)
    (hblk : ∀ off n, off % 16384 = 0 → off + n ≤ l.length → Appends (blk true off n) true ((l.drop off).take n).flatten) :
    Appends (fragAnyEncode blk lo hi l.length) true (sizedCodeGen false lo hi l) := by
  unfold fragAnyEncode
  by_cases e : lo = hi
  · rw [if_pos e]
    have hlo : lo = l.length := by omega
    have hhi : hi = l.length := by omega
    rw [hlo, hhi, sizedCodeGen_fix rfl (by omega)]
    exact fixFragEncode_appends hblk
  · rw [if_neg e]
    unfold sizedCodeGen sizedCode
    rw [if_neg (by simp [e]), if_neg h]
    exact genFragEncode_appends hblk

theorem fragAnyDecode_reads {σ : Type} {T : Prop} {blkF blkV : (off n : Nat) → σ → M (Bool × σ)} {l : List (List Bool)} {lo hi : Nat}
    {S : Nat → σ} {bad : σ → Prop} (h1 : lo ≤ l.length) (h2 : l.length ≤ hi) (h : ¬ hi < 65536)
    (hsafe : T → ∀ off n st, bad st → Safe (blkV off n st) ∧ Post (blkV off n st) bad)
    (hF : lo = hi → ∀ off n, off % 16384 = 0 → off + n ≤ l.length →
      Reads (blkF off n (S off)) (true, S (off + n)) ((l.drop off).take n).flatten ∧
      (T → Short (blkF off n (S off)) ((l.drop off).take n).flatten))
    (hV : lo ≠ hi → ∀ off n, off % 16384 = 0 → off + n ≤ l.length →
      Reads (blkV off n (S off)) (true, S (off + n)) ((l.drop off).take n).flatten ∧
      (T → WShort (blkV off n (S off)) bad ((l.drop off).take n).flatten)) :
    Reads (fragAnyDecode blkF blkV lo hi (S 0)) (true, S l.length) (sizedCodeGen false lo hi l) ∧
    (T → WShort (fragAnyDecode blkF blkV lo hi (S 0)) bad (sizedCodeGen false lo hi l)) := by
  unfold fragAnyDecode
  by_cases e : lo = hi
  · rw [if_pos e]
    have hlo : lo = l.length := by omega
    have hhi : hi = l.length := by omega
    have hF := hF e
    rw [hlo, hhi, sizedCodeGen_fix rfl (by omega)]
    have := fixFragDecode_reads hF
    exact ⟨this.1, fun t => (this.2 t).weak _⟩
  · rw [if_neg e]
    unfold sizedCodeGen sizedCode
    rw [if_neg (by simp [e]), if_neg h]
    exact genFragDecode_reads hsafe h1 h2 (hV e)

end Asn1
