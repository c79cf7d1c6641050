import Verif.Model.Strings
import Verif.Spec.Strings
import Verif.Proof.Calls
import Verif.Proof.Int4
/-! Fragmentation, octet strings, bit strings. -/
namespace Asn1

theorem Safe.bindP {α β : Type} {f : M (Bool × α)} {P : α → Prop} {k : Bool × α → M (Bool × β)}
    (hf : Safe f) (hp : Post f P) (hg : ∀ a, P a → Safe (k (true, a))) (he : ∀ a, ∃ b, k (false, a) = Pure.pure (false, b)) :
    Safe (f >>= k) := by
  intro s hwf hps hsl
  obtain ⟨⟨r1, ra⟩, s1, hr, hb, hc, hk⟩ := hf s hwf hps hsl
  cases r1 with
  | true =>
    obtain ⟨k1, k2, k3⟩ := hk rfl
    obtain ⟨r2, s2, hr2, hb2, hc2, hk2⟩ := hg ra (hp s ra s1 hr) s1 ⟨k1, by rw [hc, hb]; exact hwf.cap⟩ (by rw [hc]; exact k2)
      (by simp only [Slack, hc, hb]; exact hsl)
    refine ⟨r2, s2, ?_, hb2.trans hb, hc2.trans hc, ?_⟩
    · rw [bind_ok hr, hr2]
    · intro h2
      obtain ⟨m1, m2, m3⟩ := hk2 h2
      exact ⟨m1, by rw [hc] at m2; exact m2, by omega⟩
  | false =>
    obtain ⟨b, hb'⟩ := he ra
    refine ⟨(false, b), s1, ?_, hb, hc, by simp⟩
    rw [bind_ok hr, hb']; rfl

theorem Post.mono {α : Type} {f : M (Bool × α)} {P Q : α → Prop} (h : Post f P) (hpq : ∀ a, P a → Q a) : Post f Q :=
  fun s a s' e => hpq a (h s a s' e)

theorem Post.false {α : Type} {P : α → Prop} {a : α} : Post (Pure.pure (false, a)) P := Post.pure (by simp)

/-! ### the specification unfolded -/

theorem frag_small {l : List (List Bool)} (h : l.length < 128) : fragmentedCode l = bitsMsb 8 l.length ++ l.flatten := by
  rw [fragmentedCode, if_pos h]
  have : bitsMsb 8 l.length = false :: bitsMsb 7 l.length := by
    rw [show (8 : Nat) = 7 + 1 from rfl, bitsMsb_succ, Nat.testBit_lt_two_pow (by omega)]
  rw [this]

theorem frag_medium {l : List (List Bool)} (h : 128 ≤ l.length) (h2 : l.length < 16384) :
    fragmentedCode l = true :: bitsMsb 15 l.length ++ l.flatten := by
  rw [fragmentedCode, if_neg (by omega), if_pos h2]
  have : bitsMsb 15 l.length = false :: bitsMsb 14 l.length := by
    rw [show (15 : Nat) = 14 + 1 from rfl, bitsMsb_succ, Nat.testBit_lt_two_pow (by omega)]
  rw [this]; rfl

theorem frag_large {l : List (List Bool)} {m : Nat} (h : 16384 ≤ l.length) (hm : m = min 4 (l.length / 16384)) :
    fragmentedCode l = bitsMsb 8 (0xC0 + m) ++ ((l.take (m * 16384)).flatten ++ fragmentedCode (l.drop (m * 16384))) := by
  rw [fragmentedCode, if_neg (by omega), if_neg (by omega), ← hm]
  have h4 : m ≤ 4 := by omega
  have : bitsMsb 8 (0xC0 + m) = [true, true] ++ bitsMsb 6 m := by
    have hm' : m = 0 ∨ m = 1 ∨ m = 2 ∨ m = 3 ∨ m = 4 := by omega
    rcases hm' with h | h | h | h | h <;> subst h <;> decide
  rw [this]; simp only [List.append_assoc]

/-! ### encoding -/

theorem fragLastLength_appends {n : Nat} (h : n < 16384) :
    Appends (fragLastLength n) () (if n < 128 then bitsMsb 8 n else true :: bitsMsb 15 n) := by
  unfold fragLastLength
  by_cases h1 : n ≤ 0x7F
  · rw [if_pos h1, if_pos (by omega)]
    exact lengthOctet_appends (by omega)
  · rw [if_neg h1, if_neg (by omega)]
    have e : constrainedCode 0 0x7FFF n = bitsMsb 15 n := by
      unfold constrainedCode
      have : bitLen ((0x7FFF : Int) - 0).toNat = 15 := by decide
      rw [this, Int.sub_zero, Int.toNat_natCast]
    have := (appendBit_writes true).appends.bind (g := fun _ => encodeConstraintWholeNumber n 0 0x7FFF)
      (encodeConstraintWholeNumber_appends (v := n) (lo := 0) (hi := 0x7FFF) (by omega) (by omega) (by omega))
    rw [e] at this
    exact this

theorem blockFor_eq {n m : Nat} (h : 16384 ≤ n) (hm : m = min 4 (n / 16384)) :
    blockFor n = (m * 16384, ((0xC0 + m : Nat) : Int)) := by
  unfold blockFor
  have hm' : m = 1 ∧ n < 0x8000 ∨ m = 2 ∧ 0x8000 ≤ n ∧ n < 0xC000 ∨ m = 3 ∧ 0xC000 ≤ n ∧ n < 0x10000 ∨ m = 4 ∧ 0x10000 ≤ n := by
    omega
  rcases hm' with h | h | h | h
  · rw [if_neg (by omega), if_neg (by omega), if_neg (by omega), h.1, Prod.mk.injEq]; omega
  · rw [if_neg (by omega), if_neg (by omega), if_pos (by omega), h.1, Prod.mk.injEq]; omega
  · rw [if_neg (by omega), if_pos (by omega), h.1, Prod.mk.injEq]; omega
  · rw [if_pos (by omega), h.1, Prod.mk.injEq]; omega

theorem fragStep {α β : Type} {e : M Unit} {f : M Bool} {X Y : M α} {K : α → M β} {b : β} {w0 w1 w2 : List Bool}
    (h0 : Appends e () w0) (h1 : Appends f true w1) (h2 : Appends (X >>= K) b w2) :
    Appends ((do e; let ret ← f; if ret then X else Y) >>= K) b (w0 ++ (w1 ++ w2)) := by
  rw [bind_assoc]
  refine h0.bind ?_
  rw [bind_assoc]
  refine h1.bind ?_
  rw [if_pos rfl]
  exact h2

theorem fragEncode_aux {blk : (off n : Nat) → M Bool} {l : List (List Bool)}
    (hblk : ∀ off n, off % 16384 = 0 → off + n ≤ l.length → Appends (blk off n) true ((l.drop off).take n).flatten)
    (fuel : Nat) : ∀ off, off % 16384 = 0 → off ≤ l.length → l.length - off < fuel →
    Appends (do
      let r ← fragEncodeLoop blk fuel (l.length - off) off
      if r.1 then do
        fragLastLength r.2.1
        blk r.2.2 r.2.1
      else pure false) true (fragmentedCode (l.drop off)) := by
  induction fuel with
  | zero => intro off _ _ h; omega
  | succ fuel ih =>
    intro off hoff hle hfuel
    have hl : (l.drop off).length = l.length - off := by simp
    simp only [fragEncodeLoop]
    by_cases h : l.length - off ≥ 0x4000
    · rw [if_pos h]
      obtain ⟨m, hm⟩ : ∃ m, m = min 4 ((l.length - off) / 16384) := ⟨_, rfl⟩
      have hb := hblk off (m * 16384) hoff (by omega)
      have := ih (off + m * 16384) (by omega) (by omega) (by omega)
      rw [show l.length - (off + m * 16384) = l.length - off - m * 16384 by omega] at this
      have hb1 : (blockFor (l.length - off)).1 = m * 16384 := by rw [blockFor_eq h hm]
      have hb2 : (blockFor (l.length - off)).2 = ((0xC0 + m : Nat) : Int) := by rw [blockFor_eq h hm]
      rw [hb1, hb2, frag_large (m := m) (by rw [hl]; exact h) (by rw [hl]; exact hm), List.drop_drop]
      exact fragStep (lengthOctet_appends (n := 0xC0 + m) (by omega)) hb this
    · rw [if_neg h, pure_bind, if_pos rfl]
      have hb := hblk off (l.length - off) hoff (by omega)
      rw [List.take_of_length_le (by simp)] at hb
      have hs := (fragLastLength_appends (n := l.length - off) (by omega)).bind (g := fun _ => blk off (l.length - off)) hb
      by_cases h1 : l.length - off < 128
      · rw [frag_small (by rw [hl]; exact h1), hl]
        rw [if_pos h1] at hs; exact hs
      · rw [frag_medium (by rw [hl]; omega) (by rw [hl]; omega), hl]
        rw [if_neg h1] at hs; exact hs

theorem fragEncode_appends {blk : (off n : Nat) → M Bool} {l : List (List Bool)}
    (hblk : ∀ off n, off % 16384 = 0 → off + n ≤ l.length → Appends (blk off n) true ((l.drop off).take n).flatten) :
    Appends (fragEncode blk l.length) true (fragmentedCode l) := by
  have := fragEncode_aux hblk (l.length + 1) 0 rfl (by omega) (by omega)
  exact this

/-! ### decoding -/

theorem fragDecodeLast_reads {n : Nat} (h : n < 16384) :
    ∃ b, b < 256 ∧ ¬ (b &&& 0xC0 = 0xC0) ∧ ∃ w,
      (if n < 128 then bitsMsb 8 n else true :: bitsMsb 15 n) = bitsMsb 8 b ++ w ∧
      Reads (fragDecodeLast b) (true, n) w ∧ Short (fragDecodeLast b) w := by
  by_cases h1 : n < 128
  · refine ⟨n, by omega, ?_, [], ?_, ?_, ?_⟩
    · intro e
      have := Nat.and_le_left (n := n) (m := 0xC0); omega
    · simp [h1]
    · have e : n &&& 0x80 = 0 := by
        have : ∀ k : Fin 128, k.val &&& 0x80 = 0 := by decide
        exact this ⟨n, h1⟩
      simp only [fragDecodeLast, e]
      exact Reads.pure _
    · exact Short.nil _
  · have hq : 0x80 + n / 256 < 192 := by omega
    refine ⟨0x80 + n / 256, by omega, ?_, bitsMsb 8 n, ?_, ?_⟩
    · have : ∀ k : Fin 64, ¬ ((0x80 + k.val) &&& 0xC0 = 0xC0) := by decide
      exact this ⟨n / 256, by omega⟩
    · rw [if_neg h1]
      have e : true :: bitsMsb 15 n = bitsMsb 16 (0x8000 + n) := by
        have e1 : (0x8000 + n).testBit 15 = true := by
          rw [show (0x8000 : Nat) = 2 ^ 15 from rfl, Nat.testBit_two_pow_add_eq, Nat.testBit_lt_two_pow (by omega)]; rfl
        have e2 : bitsMsb 15 (0x8000 + n) = bitsMsb 15 n := by
          rw [← bitsMsb_mod 15 (0x8000 + n), ← bitsMsb_mod 15 n]
          congr 1
          omega
        have := bitsMsb_succ 15 (0x8000 + n)
        rw [e1, e2] at this
        exact this.symm
      rw [e, show (16 : Nat) = 8 + 8 from rfl, bitsMsb_append, Nat.shiftRight_eq_div_pow]
      congr 1
      · congr 1; omega
      · rw [← bitsMsb_mod 8 (0x8000 + n), ← bitsMsb_mod 8 n]; congr 1; omega
    · have e0 : (0x80 + n / 256) &&& 0x80 > 0 := by
        have : ∀ k : Fin 64, (0x80 + k.val) &&& 0x80 > 0 := by decide
        exact this ⟨n / 256, by omega⟩
      obtain ⟨r, hs⟩ := lengthOctet_reads (n := n % 256) (by omega)
      rw [show (256 : Nat) = 2 ^ 8 from rfl, bitsMsb_mod] at r hs
      have ev : (((0x80 + n / 256) <<< 8) ||| ((n % 2 ^ 8 : Nat) : Int).toNat) &&& 0x7FFF = n := by
        rw [Int.toNat_natCast, Nat.shiftLeft_eq, Nat.mul_comm, ← Nat.two_pow_add_eq_or_of_lt (by omega),
          show (0x7FFF : Nat) = 2 ^ 15 - 1 from rfl, Nat.and_two_pow_sub_one_eq_mod]
        omega
      constructor
      · simp only [fragDecodeLast]
        rw [if_pos e0, ← List.append_nil (bitsMsb 8 n)]
        refine r.bind ?_
        rw [if_pos rfl]
        simp only [ev]
        exact Reads.pure _
      · simp only [fragDecodeLast]
        rw [if_pos e0, ← List.append_nil (bitsMsb 8 n)]
        refine hs.bind r ?_ (fun a => ⟨_, by rw [if_neg (by simp)]⟩)
        exact Short.nil _

theorem blockSizeOf_eq {m : Nat} (h : 1 ≤ m) (h4 : m ≤ 4) :
    blockSizeOf (0xC0 + m) = some (m * 16384) ∧ (0xC0 + m) &&& 0xC0 = 0xC0 := by
  have hm' : m = 1 ∨ m = 2 ∨ m = 3 ∨ m = 4 := by omega
  rcases hm' with h | h | h | h <;> subst h <;> decide

/-- What happens behind the first length octet. -/
def fragDecodeRest {σ : Type} (blk : (off n : Nat) → σ → M (Bool × σ)) (max fuel rem off : Nat) (st : σ) : M (Bool × (Nat × σ)) := do
    let r ← fragDecodeLoop blk max fuel rem off st
    if r.1 then do
      let l ← fragDecodeLast r.2.1
      if l.1 then
        if r.2.2.1 + l.2 ≤ max then do
          let p ← blk r.2.2.1 l.2 r.2.2.2
          if p.1 then
            if 1 ≤ r.2.2.1 + l.2 ∧ r.2.2.1 + l.2 ≤ max then pure (true, (r.2.2.1 + l.2, p.2))
            else pure (false, (0, p.2))
          else pure (false, (0, p.2))
        else pure (false, (0, r.2.2.2))
      else pure (false, (0, r.2.2.2))
    else pure (false, (0, r.2.2.2))

theorem fragDecode_aux {σ : Type} {blk : (off n : Nat) → σ → M (Bool × σ)} {max : Nat} {l : List (List Bool)} {S : Nat → σ}
    (h1 : 1 ≤ l.length) (hmax : l.length ≤ max)
    (hblk : ∀ off n, off % 16384 = 0 → off + n ≤ l.length →
      Reads (blk off n (S off)) (true, S (off + n)) ((l.drop off).take n).flatten ∧
      Short (blk off n (S off)) ((l.drop off).take n).flatten)
    (fuel : Nat) : ∀ off, off % 16384 = 0 → off ≤ l.length → l.length - off < fuel →
    ∃ b w, b < 256 ∧ fragmentedCode (l.drop off) = bitsMsb 8 b ++ w ∧
      Reads (fragDecodeRest blk max fuel b off (S off)) (true, (l.length, S l.length)) w ∧
      Short (fragDecodeRest blk max fuel b off (S off)) w := by
  induction fuel with
  | zero => intro off _ _ h; omega
  | succ fuel ih =>
    intro off hoff hle hfuel
    have hl : (l.drop off).length = l.length - off := by simp
    by_cases h : l.length - off ≥ 0x4000
    · obtain ⟨m, hm⟩ : ∃ m, m = min 4 ((l.length - off) / 16384) := ⟨_, rfl⟩
      obtain ⟨b, w, hb, hw, hR, hS⟩ := ih (off + m * 16384) (by omega) (by omega) (by omega)
      rw [frag_large (m := m) (by rw [hl]; exact h) (by rw [hl]; exact hm)]
      obtain ⟨e1, e2⟩ := blockSizeOf_eq (m := m) (by omega) (by omega)
      refine ⟨0xC0 + m, _, by omega, rfl, ?_⟩
      obtain ⟨rb, sb⟩ := hblk off (m * 16384) hoff (by omega)
      obtain ⟨ro, so⟩ := lengthOctet_reads (n := b) (by omega)
      rw [List.drop_drop, hw]
      have hun : fragDecodeRest blk max (fuel + 1) (0xC0 + m) off (S off) = (do
          let p ← blk off (m * 16384) (S off)
          let r ← (if p.1 then do
            let q ← decodeConstraintWholeNumber 0 0xFF
            if q.1 then fragDecodeLoop blk max fuel q.2.toNat (off + m * 16384) p.2
            else pure (false, (q.2.toNat, off + m * 16384, p.2))
          else pure (false, (0xC0 + m, off, p.2)))
          if r.1 then do
            let l ← fragDecodeLast r.2.1
            if l.1 then
              if r.2.2.1 + l.2 ≤ max then do
                let p ← blk r.2.2.1 l.2 r.2.2.2
                if p.1 then
                  if 1 ≤ r.2.2.1 + l.2 ∧ r.2.2.1 + l.2 ≤ max then pure (true, (r.2.2.1 + l.2, p.2))
                  else pure (false, (0, p.2))
                else pure (false, (0, p.2))
              else pure (false, (0, r.2.2.2))
            else pure (false, (0, r.2.2.2))
          else pure (false, (0, r.2.2.2))) := by
        unfold fragDecodeRest
        simp only [fragDecodeLoop]
        rw [if_pos e2, e1]
        simp only
        rw [if_pos (by omega)]
        simp only [bind_assoc]
      rw [hun]
      constructor
      · refine rb.bind ?_
        simp only [if_pos, bind_assoc]
        refine ro.bind ?_
        rw [if_pos rfl]
        exact hR
      · refine sb.bind rb ?_ (fun a => ⟨(0, a), by simp⟩)
        simp only [if_pos, bind_assoc]
        refine so.bind ro ?_ (fun a => ⟨(0, S (off + m * 16384)), by simp⟩)
        rw [if_pos rfl]
        exact hS
    · obtain ⟨b, hb, hb2, w, hw, hR, hS⟩ := fragDecodeLast_reads (n := l.length - off) (by omega)
      obtain ⟨rb, sb⟩ := hblk off (l.length - off) hoff (by omega)
      rw [List.take_of_length_le (by simp), show off + (l.length - off) = l.length by omega] at rb
      rw [List.take_of_length_le (by simp)] at sb
      have hcode : fragmentedCode (l.drop off) = bitsMsb 8 b ++ (w ++ (l.drop off).flatten) := by
        rw [← List.append_assoc, ← hw]
        by_cases h1 : l.length - off < 128
        · rw [frag_small (by rw [hl]; exact h1), hl, if_pos h1]
        · rw [frag_medium (by rw [hl]; omega) (by rw [hl]; omega), hl, if_neg h1]
      refine ⟨b, _, hb, hcode, ?_⟩
      unfold fragDecodeRest
      simp only [fragDecodeLoop]
      rw [if_neg hb2, pure_bind, if_pos rfl]
      constructor
      · refine hR.bind ?_
        rw [if_pos rfl, if_pos (by show off + (l.length - off) ≤ max; omega), ← List.append_nil (List.flatten _)]
        refine rb.bind ?_
        rw [if_pos rfl, if_pos (by show 1 ≤ off + (l.length - off) ∧ off + (l.length - off) ≤ max; omega)]
        simp only [show off + (l.length - off) = l.length by omega]
        exact Reads.pure _
      · refine hS.bind hR ?_ (fun a => ⟨(0, S off), by simp⟩)
        rw [if_pos rfl, if_pos (by show off + (l.length - off) ≤ max; omega), ← List.append_nil (List.flatten _)]
        refine sb.bind rb ?_ (fun a => ⟨(0, a), by simp⟩)
        exact Short.nil _

theorem fragDecode_reads {σ : Type} {blk : (off n : Nat) → σ → M (Bool × σ)} {max : Nat} {l : List (List Bool)} {S : Nat → σ}
    (h1 : 1 ≤ l.length) (hmax : l.length ≤ max)
    (hblk : ∀ off n, off % 16384 = 0 → off + n ≤ l.length →
      Reads (blk off n (S off)) (true, S (off + n)) ((l.drop off).take n).flatten ∧
      Short (blk off n (S off)) ((l.drop off).take n).flatten) :
    Reads (fragDecode blk max (S 0)) (true, (l.length, S l.length)) (fragmentedCode l) ∧
    Short (fragDecode blk max (S 0)) (fragmentedCode l) := by
  obtain ⟨b, w, hb, hw, hR, hS⟩ := fragDecode_aux h1 hmax hblk (max + 1) 0 rfl (by omega) (by omega)
  obtain ⟨ro, so⟩ := lengthOctet_reads (n := b) (by omega)
  rw [List.drop_zero] at hw
  rw [hw]
  constructor
  · refine ro.bind ?_
    rw [if_pos rfl]
    exact hR
  · refine so.bind ro ?_ (fun a => ⟨(0, S 0), by simp⟩)
    rw [if_pos rfl]
    exact hS

/-! ### decoding arbitrary input -/

theorem lengthOctet_post : Post (decodeConstraintWholeNumber 0 255) (fun v => 0 ≤ v ∧ v ≤ 255) :=
  decodeConstraintWholeNumber_post (by omega) (by omega) (by omega) (by omega)

theorem blockSizeOf_some {b n : Nat} (h : blockSizeOf b = some n) : n % 16384 = 0 ∧ 0 < n := by
  unfold blockSizeOf at h
  split at h
  · cases h; omega
  split at h
  · cases h; omega
  split at h
  · cases h; omega
  split at h
  · cases h; omega
  · cases h

theorem fragDecodeLoop_safe {σ : Type} {blk : (off n : Nat) → σ → M (Bool × σ)} {max : Nat} {I : Nat → σ → Prop}
    (hblk : ∀ off n st, off % 16384 = 0 → off + n ≤ max → I off st → Safe (blk off n st) ∧ Post (blk off n st) (I (off + n)))
    (fuel : Nat) : ∀ rem off st, off % 16384 = 0 → off ≤ max → I off st → max - off < fuel →
    Safe (fragDecodeLoop blk max fuel rem off st) ∧
    Post (fragDecodeLoop blk max fuel rem off st) (fun r => r.2.1 % 16384 = 0 ∧ r.2.1 ≤ max ∧ I r.2.1 r.2.2) := by
  induction fuel with
  | zero => intro _ off _ _ _ _ h; omega
  | succ fuel ih =>
    intro rem off st hoff hle hI hf
    simp only [fragDecodeLoop]
    by_cases h : rem &&& 0xC0 = 0xC0
    · rw [if_pos h]
      cases hbs : blockSizeOf rem with
      | none => exact ⟨Safe.pure _ _, Post.false⟩
      | some cur =>
        obtain ⟨c1, c2⟩ := blockSizeOf_some hbs
        simp only
        by_cases h2 : off + cur ≤ max
        · rw [if_pos h2]
          obtain ⟨sb, pb⟩ := hblk off cur st hoff h2 hI
          have key := fun a (ha : I (off + cur) a) (q : Int) => ih q.toNat (off + cur) a (by omega) h2 ha (by omega)
          constructor
          · refine sb.bindP pb (fun a ha => ?_) (fun a => ⟨_, by rw [if_neg (by simp)]⟩)
            rw [if_pos rfl]
            refine lengthOctet_safe.bind (fun q => ?_) (fun q => ⟨_, by rw [if_neg (by simp)]⟩)
            rw [if_pos rfl]
            exact (key a ha q).1
          · refine pb.bind' (fun a ha => ?_) (fun a => ?_)
            · rw [if_pos rfl]
              refine Post.bind' (Q := fun _ => True) (fun _ _ _ _ => trivial) (fun q _ => ?_) (fun q => ?_)
              · rw [if_pos rfl]
                exact (key a ha q).2
              · rw [if_neg (by simp)]; exact Post.false
            · rw [if_neg (by simp)]; exact Post.false
        · rw [if_neg h2]
          exact ⟨Safe.pure _ _, Post.false⟩
    · rw [if_neg h]
      exact ⟨Safe.pure _ _, Post.pure (fun _ => ⟨hoff, hle, hI⟩)⟩

theorem fragDecodeLast_safe (rem : Nat) : Safe (fragDecodeLast rem) := by
  unfold fragDecodeLast
  refine Safe.ite (fun _ => ?_) (fun _ => Safe.pure _ _)
  refine lengthOctet_safe.bind (fun q => ?_) (fun q => ⟨_, by rw [if_neg (by simp)]⟩)
  rw [if_pos rfl]
  exact Safe.pure _ _

theorem fragDecode_safe {σ : Type} {blk : (off n : Nat) → σ → M (Bool × σ)} {max : Nat} {I : σ → Prop} {st : σ}
    (hblk : ∀ off n st, off % 16384 = 0 → off + n ≤ max → I st → Safe (blk off n st) ∧ Post (blk off n st) I) (hI : I st) :
    Safe (fragDecode blk max st) ∧ Post (fragDecode blk max st) (fun r => r.1 ≤ max ∧ I r.2) := by
  have key := fun rem => fragDecodeLoop_safe (I := fun _ => I) hblk (max + 1) rem 0 st rfl (by omega) hI (by omega)
  unfold fragDecode
  constructor
  · refine lengthOctet_safe.bind (fun q => ?_) (fun q => ⟨_, by rw [if_neg (by simp)]⟩)
    rw [if_pos rfl]
    refine (key _).1.bindP (key _).2 (fun a ha => ?_) (fun q => ⟨_, by rw [if_neg (by simp)]⟩)
    rw [if_pos rfl]
    refine (fragDecodeLast_safe _).bind (fun q => ?_) (fun q => ⟨_, by rw [if_neg (by simp)]⟩)
    rw [if_pos rfl]
    refine Safe.ite (fun h => ?_) (fun _ => Safe.pure _ _)
    refine (hblk _ _ _ ha.1 h ha.2.2).1.bind (fun q => ?_) (fun q => ⟨_, by rw [if_neg (by simp)]⟩)
    rw [if_pos rfl]
    exact Safe.ite (fun h => Safe.pure _ _) (fun _ => Safe.pure _ _)
  · refine Post.bind (fun q => Post.ite (fun _ => ?_) (fun _ => Post.false))
    refine (key _).2.bind' (fun a ha => ?_) (fun _ => by rw [if_neg (by simp)]; exact Post.false)
    rw [if_pos rfl]
    refine Post.bind (fun l => Post.ite (fun _ => Post.ite (fun h => ?_) (fun _ => Post.false)) (fun _ => Post.false))
    refine (hblk _ _ _ ha.1 h ha.2.2).2.bind' (fun p hp => ?_) (fun _ => by rw [if_neg (by simp)]; exact Post.false)
    rw [if_pos rfl]
    exact Post.ite (fun _ => Post.pure (fun _ => ⟨h, hp⟩)) (fun _ => Post.false)

/-! ### octets -/

theorem tblGet_ok {α : Type} {t : List α} {i : Nat} {b : α} (h : t[i]? = some b) : tblGet t i = pure b := by
  funext s; simp [tblGet, h]

theorem appendBytesLoop_appends (arr : List Byte) (n : Nat) : ∀ off, off + n ≤ arr.length →
    Appends (appendBytesLoop arr n off) true (bytesBits ((arr.drop off).take n)) := by
  induction n with
  | zero => intro off _; simpa [appendBytesLoop, bytesBits] using Appends.pure true
  | succ n ih =>
    intro off h
    have hlt : off < arr.length := by omega
    simp only [appendBytesLoop]
    rw [tblGet_ok (List.getElem?_eq_getElem hlt), pure_bind]
    rw [List.drop_eq_getElem_cons hlt, List.take_succ_cons, bytesBits_cons]
    refine (appendByte0_writes _).appends.bind ?_
    rw [if_pos rfl]
    exact ih (off + 1) (by omega)

theorem arrSet_ok {arr : List Byte} {i : Nat} {b : Byte} (h : i < arr.length) : arrSet arr i b = pure (arr.set i b) := by
  unfold arrSet; rw [if_pos h]

/-- The destination after the first `k` bytes of `l` are stored. -/
def fillTo (arr l : List Byte) (k : Nat) : List Byte := l.take k ++ arr.drop k

theorem fillTo_length {arr l : List Byte} {k : Nat} (h1 : k ≤ l.length) (h2 : l.length ≤ arr.length) :
    (fillTo arr l k).length = arr.length := by simp [fillTo]; omega

theorem fillTo_succ {arr l : List Byte} {k : Nat} (h1 : k < l.length) (h2 : l.length ≤ arr.length) :
    (fillTo arr l k).set k l[k] = fillTo arr l (k + 1) := by
  unfold fillTo
  have e : (l.take k).length = k := by simp; omega
  rw [List.set_append_right _ _ (by omega), e, Nat.sub_self, List.drop_eq_getElem_cons (show k < arr.length by omega), List.set_cons_zero,
    List.take_succ_eq_append_getElem h1, List.append_assoc]
  rfl

theorem readBytesLoop_reads (arr l : List Byte) (hcap : l.length ≤ arr.length) (n : Nat) : ∀ off, off + n ≤ l.length →
    Reads (readBytesLoop n off (fillTo arr l off)) (true, fillTo arr l (off + n)) (bytesBits ((l.drop off).take n)) ∧
    Short (readBytesLoop n off (fillTo arr l off)) (bytesBits ((l.drop off).take n)) := by
  induction n with
  | zero => intro off _; simpa [readBytesLoop, bytesBits] using ⟨Reads.pure _, Short.nil _⟩
  | succ n ih =>
    intro off h
    have hlt : off < l.length := by omega
    simp only [readBytesLoop]
    rw [List.drop_eq_getElem_cons hlt, List.take_succ_cons, bytesBits_cons]
    obtain ⟨r, hs⟩ := ih (off + 1) (by omega)
    rw [show off + 1 + n = off + (n + 1) by omega] at r
    have hset : ∀ b, arrSet (fillTo arr l off) off b = pure ((fillTo arr l off).set off b) :=
      fun b => arrSet_ok (by rw [fillTo_length (by omega) hcap]; omega)
    simp only [hset, pure_bind]
    constructor
    · refine (readByte_reads _).bind ?_
      rw [if_pos rfl]
      simp only [fillTo_succ hlt hcap]
      exact r
    · refine (readByte_needs.short (by simp)).bind (readByte_reads _) ?_ (fun a => ⟨_, by rw [if_neg (by simp)]⟩)
      rw [if_pos rfl]
      simp only [fillTo_succ hlt hcap]
      exact hs

theorem readBytesLoop_safe (N : Nat) (n : Nat) : ∀ off arr, off + n ≤ N → arr.length = N →
    Safe (readBytesLoop n off arr) ∧ Post (readBytesLoop n off arr) (fun a => a.length = N) := by
  induction n with
  | zero => intro off arr _ h; exact ⟨Safe.pure _ _, Post.pure (fun _ => h)⟩
  | succ n ih =>
    intro off arr h ha
    simp only [readBytesLoop]
    have hset : ∀ b, arrSet arr off b = pure (arr.set off b) := fun b => arrSet_ok (by omega)
    simp only [hset, pure_bind]
    have key := fun b : Byte => ih (off + 1) (arr.set off b) (by omega) (by simp [ha])
    constructor
    · refine readByte_safe.bind (fun a => ?_) (fun a => ⟨_, by rw [if_neg (by simp)]⟩)
      rw [if_pos rfl]; exact (key _).1
    · refine Post.bind (fun p => Post.ite (fun _ => (key _).2) (fun _ => Post.false))

theorem flatten_map_byteBits (l : List Byte) : (l.map byteBits).flatten = bytesBits l := by
  simp [bytesBits, List.flatMap]

theorem fillTo_zero (arr l : List Byte) : fillTo arr l 0 = arr := by simp [fillTo]

theorem fillTo_full (arr l : List Byte) : fillTo arr l l.length = l ++ arr.drop l.length := by simp [fillTo]

theorem encodeOctetStringFragmentation_appends {arr : List Byte} {n : Nat} (h : n ≤ arr.length) :
    Appends (encodeOctetStringFragmentation arr n) true (fragmentedCode ((arr.take n).map byteBits)) := by
  have hl : ((arr.take n).map byteBits).length = n := by simp; omega
  have := fragEncode_appends (blk := fun off n => appendBytesLoop arr n off) (l := (arr.take n).map byteBits) (by
    intro off k _ hk
    rw [hl] at hk
    have := appendBytesLoop_appends arr k off (by omega)
    rw [← flatten_map_byteBits] at this
    rw [← List.map_drop, ← List.map_take]
    rw [List.drop_take, List.take_take, Nat.min_eq_left (by omega)]
    exact this)
  rw [hl] at this
  exact this

theorem decodeOctetStringFragmentation_reads {arr l : List Byte} {max : Nat} (h1 : 1 ≤ l.length) (h2 : l.length ≤ max)
    (hcap : l.length ≤ arr.length) :
    Reads (decodeOctetStringFragmentation arr max) (true, (l.length, l ++ arr.drop l.length)) (fragmentedCode (l.map byteBits)) ∧
    Short (decodeOctetStringFragmentation arr max) (fragmentedCode (l.map byteBits)) := by
  have hl : (l.map byteBits).length = l.length := by simp
  have := fragDecode_reads (blk := fun off n arr => readBytesLoop n off arr) (max := max) (l := l.map byteBits)
    (S := fillTo arr l) (by rw [hl]; exact h1) (by rw [hl]; exact h2) (by
      intro off n _ hn
      rw [hl] at hn
      rw [← List.map_drop, ← List.map_take, flatten_map_byteBits]
      exact readBytesLoop_reads arr l hcap n off hn)
  rw [hl, fillTo_zero, fillTo_full] at this
  exact this

theorem decodeOctetStringFragmentation_safe {arr : List Byte} {max : Nat} (h : max ≤ arr.length) :
    Safe (decodeOctetStringFragmentation arr max) ∧
    Post (decodeOctetStringFragmentation arr max) (fun r => r.1 ≤ max ∧ r.2.length = arr.length) := by
  unfold decodeOctetStringFragmentation
  exact fragDecode_safe (I := fun a : List Byte => a.length = arr.length)
    (fun off n st _ h2 hI => readBytesLoop_safe arr.length n off st (by omega) hI) rfl

theorem encodeOctetString_appends {arr : List Byte} {n lo hi : Nat} (h1 : lo ≤ n) (h2 : n ≤ hi) (hn : n ≤ arr.length) :
    Appends (encodeOctetString arr n lo hi) true (sizedCode lo hi ((arr.take n).map byteBits)) := by
  unfold encodeOctetString sizedCode
  have hl : ((arr.take n).map byteBits).length = n := by simp; omega
  rw [if_pos ⟨h1, h2⟩, hl]
  by_cases h : hi < 65536
  · rw [if_pos h, if_pos h]
    refine Appends.bind (a := ()) ?_ ?_
    · by_cases he : lo = hi
      · subst he
        have : n = lo := by omega
        subst this
        simp only [ne_eq, not_true_eq_false, if_false, constrainedCode, Int.sub_self]
        exact Appends.pure ()
      · rw [if_pos he]
        exact encodeConstraintWholeNumber_appends (by omega) (by omega) (by omega)
    · rw [flatten_map_byteBits]
      exact encodeOctetStringNoLength_appends hn
  · rw [if_neg h, if_neg h]
    exact encodeOctetStringFragmentation_appends hn

theorem arrPut_ok {arr l : List Byte} {off n : Nat} (h : off + n ≤ arr.length) :
    arrPut arr off n l = pure (arr.take off ++ l ++ arr.drop (off + l.length)) := by
  unfold arrPut; rw [if_pos h]

theorem decodeOctetsInto_reads {arr l : List Byte} (h : l.length ≤ arr.length) :
    Reads (decodeOctetsInto arr l.length) (true, l ++ arr.drop l.length) (bytesBits l) := by
  unfold decodeOctetsInto
  rw [← List.append_nil (bytesBits l)]
  refine (decodeOctetStringNoLength_reads l).bind ?_
  rw [if_pos rfl, arrPut_ok (by omega), pure_bind]
  simpa using Reads.pure _

/-- Reading the length determinant of a size constraint below 65536. -/
theorem sizeDet_reads {lo hi n : Nat} (h1 : lo ≤ n) (h2 : n ≤ hi) (h : hi < 65536) (c : Prop) [Decidable c] (hc : c ↔ lo ≠ hi) :
    Reads (if c then decodeConstraintWholeNumber lo hi else pure (true, (lo : Int))) (true, (n : Int)) (constrainedCode lo hi n) ∧
    Short (if c then decodeConstraintWholeNumber lo hi else pure (true, (lo : Int))) (constrainedCode lo hi n) := by
  by_cases he : lo = hi
  · subst he
    have : n = lo := by omega
    subst this
    rw [if_neg (by rw [hc]; simp)]
    simp only [constrainedCode, Int.sub_self]
    exact ⟨Reads.pure _, Short.nil _⟩
  · rw [if_pos (hc.2 he)]
    exact decodeConstraintWholeNumber_reads (by omega) (by omega) (by omega) (by omega) (by omega)

theorem decodeOctetString_reads {arr l : List Byte} {lo hi : Nat} (h1 : lo ≤ l.length) (h2 : l.length ≤ hi)
    (hcap : l.length ≤ arr.length) (hne : hi < 65536 ∨ 1 ≤ l.length) :
    Reads (decodeOctetString arr lo hi) (true, (l.length, l ++ arr.drop l.length)) (sizedCode lo hi (l.map byteBits)) := by
  unfold decodeOctetString sizedCode
  rw [List.length_map]
  by_cases h : hi < 65536
  · rw [if_pos h, if_pos h]
    refine (sizeDet_reads h1 h2 h (lo < hi) (by omega)).1.bind ?_
    rw [if_pos (by simp only [true_and]; omega), flatten_map_byteBits]
    simp only [Int.toNat_natCast]
    exact (decodeOctetsInto_reads hcap).map (h := fun p : Bool × List Byte => (true, (l.length, p.2)))
  · rw [if_neg h, if_neg h]
    exact (decodeOctetStringFragmentation_reads (by omega) h2 hcap).1

theorem Post.and {α : Type} {f : M (Bool × α)} {P Q : α → Prop} (h : Post f P) (h' : Post f Q) : Post f (fun a => P a ∧ Q a) :=
  fun s a s' e => ⟨h s a s' e, h' s a s' e⟩

theorem bufGet_state {i : Nat} {s s' : BitStream} {b : Byte} (h : bufGet i s = .ok (b, s')) : s' = s := by
  simp only [bufGet] at h
  split at h
  · simp only [Res.ok.injEq, Prod.mk.injEq] at h; exact h.2.symm
  · cases h

theorem readByteArrayLoop_inv (cb ncb n : Nat) : ∀ rb s r s', readByteArrayLoop cb ncb n rb s = .ok (r, s') →
    r.length = n ∧ s' = s := by
  induction n with
  | zero => intro rb s r s' h; simp [readByteArrayLoop] at h; simp [← h.1, h.2]
  | succ n ih =>
    intro rb s r s' h
    simp only [readByteArrayLoop] at h
    rw [bind_def] at h
    split at h
    · rename_i b1 s1 e1
      rw [bind_def] at h
      split at h
      · rename_i b2 s2 e2
        rw [bind_def] at h
        split at h
        · rename_i r3 s3 e3
          simp only [pure_run, Res.ok.injEq, Prod.mk.injEq] at h
          have := ih _ _ _ _ e3
          rw [← h.1, List.length_cons, this.1, ← h.2, this.2, bufGet_state e2, bufGet_state e1]
          exact ⟨rfl, rfl⟩
        · cases h
        · cases h
      · cases h
      · cases h
    · cases h
    · cases h

/-- What the octet reader returns. -/
theorem decodeOctetStringNoLength_inv {n : Nat} {s s' : BitStream} {b : Bool} {l : List Byte}
    (h : decodeOctetStringNoLength n s = .ok ((b, l), s')) :
    (b = true ∧ l.length = n ∧ s' = { s with currentByte := s.currentByte + n }) ∨ (b = false ∧ l = [] ∧ s' = s) := by
  simp only [decodeOctetStringNoLength, getS_bind] at h
  split at h
  · split at h
    · rw [bind_def] at h
      split at h
      · rename_i r1 s1 e1
        simp only [memcpyOut] at e1
        split at e1
        · simp only [Res.ok.injEq, Prod.mk.injEq] at e1
          simp only [modS_bind, pure_run, Res.ok.injEq, Prod.mk.injEq] at h
          refine Or.inl ⟨h.1.1.symm, ?_, ?_⟩
          · rw [← h.1.2, ← e1.1]; simp; omega
          · rw [← h.2, ← e1.2]
        · cases e1
      · cases h
      · cases h
    · simp only [pure_run, Res.ok.injEq, Prod.mk.injEq] at h
      exact Or.inr ⟨h.1.1.symm, h.1.2.symm, h.2.symm⟩
  · simp only [readByteArray, getS_bind] at h
    split at h
    · simp only [pure_run, Res.ok.injEq, Prod.mk.injEq] at h
      exact Or.inr ⟨h.1.1.symm, h.1.2.symm, h.2.symm⟩
    · rw [bind_def] at h
      split at h
      · rename_i r1 s1 e1
        have := readByteArrayLoop_inv _ _ _ _ _ _ _ e1
        simp only [modS_bind, pure_run, Res.ok.injEq, Prod.mk.injEq] at h
        refine Or.inl ⟨h.1.1.symm, ?_, ?_⟩
        · rw [← h.1.2]; exact this.1
        · rw [← h.2, this.2]
      · cases h
      · cases h

theorem decodeOctetStringNoLength_post (n : Nat) : Post (decodeOctetStringNoLength n) (fun l => l.length = n) := by
  intro s l s' h
  rcases decodeOctetStringNoLength_inv h with h | h
  · exact h.2.1
  · cases h.1

theorem decodeOctetStringNoLength_pos {n : Nat} {s s' : BitStream} {l : List Byte}
    (h : decodeOctetStringNoLength n s = .ok ((true, l), s')) : s'.pos = s.pos + 8 * n := by
  rcases decodeOctetStringNoLength_inv h with h | h
  · rw [h.2.2]; simp only [BitStream.pos]; omega
  · cases h.1

theorem decodeOctetStringNoLength_fail {n : Nat} {s s' : BitStream} {l : List Byte}
    (h : decodeOctetStringNoLength n s = .ok ((false, l), s')) : l = [] := by
  rcases decodeOctetStringNoLength_inv h with h | h
  · cases h.1
  · exact h.2.1

theorem Safe.pres {α β : Type} {f : M (Bool × α)} {h : Bool × α → Bool × β} {P : β → Prop}
    (hh : ∀ p, (h p).1 = true → P (h p).2) : Post (f >>= fun p => Pure.pure (h p)) P := by
  refine Post.bind (fun p => ?_)
  exact Post.pure (b := (h p).1) (a := (h p).2) (hh p)

/-- The flag of the octet call is ignored, so success does not mean that the cursor moved; it is inside the
input all the same. -/
theorem decodeOctetsInto_ignored {β : Type} (arr : List Byte) (n : Nat) (h : n ≤ arr.length) (g : List Byte → β) :
    Safe (do let p ← decodeOctetsInto arr n; pure (true, g p.2)) := by
  intro s hwf hp hsl
  unfold decodeOctetsInto
  simp only [bind_assoc]
  by_cases hlt : 8 * s.count < s.pos + 8 * n
  · refine ⟨(true, g arr), s, ?_, rfl, rfl, fun _ => ⟨hwf.bit, hp, Nat.le_refl _⟩⟩
    rw [bind_ok (decodeOctetStringNoLength_short hlt), if_neg (by simp), pure_bind]; rfl
  · obtain ⟨⟨b, l⟩, s1, h1, h2, h3, h4⟩ := decodeOctetStringNoLength_safe n s hwf hp hsl
    cases b with
    | true =>
      have hl := decodeOctetStringNoLength_post n s l s1 h1
      refine ⟨(true, g (arr.take 0 ++ l ++ arr.drop (0 + l.length))), s1, ?_, h2, h3, fun _ => h4 rfl⟩
      rw [bind_ok h1, if_pos rfl, arrPut_ok (by omega)]; rfl
    | false =>
      -- cannot happen: enough bits are left
      exfalso
      obtain ⟨rest, hr⟩ := decSt_exists hwf hp
      have hlen := hr.pos
      obtain ⟨l', hl', hbits⟩ := exists_bytes n (fun i => rest[i]?.getD false)
      have : rest = bytesBits l' ++ rest.drop (8 * n) := by
        conv => lhs; rw [← List.take_append_drop (8 * n) rest]
        congr 1
        apply List.ext_getElem?
        intro i
        by_cases hi : i < 8 * n
        · have e := hbits i hi
          have l1 : i < (bytesBits l').length := by rw [bytesBits_length]; omega
          have l2 : i < rest.length := by omega
          rw [List.getElem?_take, if_pos hi]
          rw [List.getElem?_eq_getElem l1, List.getElem?_eq_getElem l2] at e ⊢
          simpa using e.symm
        · rw [List.getElem?_eq_none (by simp; omega), List.getElem?_eq_none (by simp; omega)]
      rw [this] at hr
      obtain ⟨s', k1, _⟩ := decodeOctetStringNoLength_reads l' s _ hr
      rw [hl', h1] at k1
      simp at k1

theorem decodeOctetString_safe {arr : List Byte} {lo hi : Nat} (h : hi ≤ arr.length) :
    Safe (decodeOctetString arr lo hi) := by
  unfold decodeOctetString
  refine Safe.ite (fun hlt => ?_) (fun _ => (decodeOctetStringFragmentation_safe h).1)
  have hq : Safe (if lo < hi then decodeConstraintWholeNumber lo hi else pure (true, (lo : Int))) :=
    Safe.ite (fun _ => decodeConstraintWholeNumber_safe (by omega) (by omega) (by omega) (by omega)) (fun _ => Safe.pure _ _)
  refine hq.bind (fun a => ?_) (fun a => ⟨(a.toNat, arr), by rw [if_neg (by simp)]⟩)
  refine Safe.ite (fun hc => ?_) (fun _ => Safe.pure _ _)
  simp only [true_and] at hc
  exact decodeOctetsInto_ignored arr a.toNat (by omega) (fun p => (a.toNat, p))

theorem decodeOctetString_post {arr : List Byte} {lo hi : Nat} (h : hi ≤ arr.length) :
    Post (decodeOctetString arr lo hi) (fun r => r.1 ≤ hi ∧ r.2.length = arr.length) := by
  unfold decodeOctetString
  refine Post.ite (fun hlt => ?_) (fun _ => (decodeOctetStringFragmentation_safe h).2)
  refine Post.bind (fun q => Post.ite (fun hc => ?_) (fun _ => Post.false))
  intro s r s' e
  rw [bind_def] at e
  split at e
  · rename_i p s1 e1
    simp only [pure_run, Res.ok.injEq, Prod.mk.injEq] at e
    refine ⟨by rw [← e.1.2]; omega, ?_⟩
    rw [← e.1.2]
    simp only [decodeOctetsInto] at e1
    rw [bind_def] at e1
    split at e1
    · rename_i p2 s2 e2
      split at e1
      · rename_i hp2
        have hl : p2.2.length = q.2.toNat := decodeOctetStringNoLength_post q.2.toNat s p2.2 s2 (by rw [e2, ← hp2])
        rw [arrPut_ok (by omega), pure_bind] at e1
        simp only [pure_run, Res.ok.injEq, Prod.mk.injEq] at e1
        rw [← e1.1]; simp; omega
      · simp only [pure_run, Res.ok.injEq, Prod.mk.injEq] at e1
        rw [← e1.1]
    · cases e1
    · cases e1
  · cases e
  · cases e

end Asn1
