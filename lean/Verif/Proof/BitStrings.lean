import Verif.Proof.Strings
/-! Bit strings. -/
namespace Asn1

theorem Packed.unique {w : List Bool} {a b : List Byte} (ha : Packed w a) (hb : Packed w b) : a = b := by
  apply bytesBits_inj
  rw [ha.2, hb.2, ha.1, hb.1]

theorem Packed.append {w1 w2 : List Bool} {a b : List Byte} (h : w1.length % 8 = 0) (ha : Packed w1 a) (hb : Packed w2 b) :
    Packed (w1 ++ w2) (a ++ b) := by
  have h1 := ha.1
  have h2 := hb.1
  have e : 8 * a.length - w1.length = 0 := by omega
  refine ⟨by simp only [List.length_append]; omega, ?_⟩
  rw [bytesBits_append, ha.2, hb.2, e]
  simp only [List.replicate_zero, List.append_nil, List.append_assoc, List.length_append]
  congr 3
  omega

theorem Packed.nil : Packed [] [] := ⟨rfl, rfl⟩

/-- One-bit items. -/
theorem flatten_singletons (l : List Bool) : (l.map fun b => [b]).flatten = l := by
  induction l with
  | nil => rfl
  | cons b l ih => simp [ih]

theorem bytesBits_drop (arr : List Byte) (k : Nat) : bytesBits (arr.drop k) = (bytesBits arr).drop (8 * k) := by
  induction arr generalizing k with
  | nil => simp [bytesBits]
  | cons a t ih =>
    cases k with
    | zero => simp
    | succ k =>
      rw [List.drop_succ_cons, ih, bytesBits_cons, show 8 * (k + 1) = 8 * k + 8 by omega, Nat.add_comm, ← List.drop_drop,
        List.drop_left' (by simp)]

theorem encodeBitString_appends {arr : List Byte} {n lo hi : Nat} (h1 : lo ≤ n) (h2 : n ≤ hi) (hn : n ≤ 8 * arr.length) :
    Appends (encodeBitString arr n lo hi) true (sizedCode lo hi (((bytesBits arr).take n).map fun b => [b])) := by
  unfold encodeBitString sizedCode
  have hl : (((bytesBits arr).take n).map fun b => [b]).length = n := by
    rw [List.length_map, List.length_take, bytesBits_length]; omega
  by_cases h : hi < 65536
  · rw [if_pos h, if_pos h, hl]
    refine Appends.bind (a := ()) ?_ ?_
    · by_cases he : lo = hi
      · subst he
        have : n = lo := by omega
        subst this
        simp only [ne_eq, not_true_eq_false, if_false, constrainedCode, Int.sub_self]
        exact Appends.pure ()
      · rw [if_pos he]
        exact encodeConstraintWholeNumber_appends (by omega) (by omega) (by omega)
    · rw [flatten_singletons]
      exact (appendBits_appends hn).thenTrue
  · rw [if_neg h, if_neg h]
    have := fragEncode_appends (blk := fun off n => do appendBits (arr.drop (off / 8)) n; pure true)
      (l := ((bytesBits arr).take n).map fun b => [b]) (by
        intro off k hoff hk
        rw [hl] at hk
        rw [← List.map_drop, ← List.map_take, flatten_singletons]
        have := (appendBits_appends (arr := arr.drop (off / 8)) (n := k) (by simp; omega)).thenTrue
        rw [bytesBits_drop, show 8 * (off / 8) = off by omega] at this
        rw [List.drop_take, List.take_take, Nat.min_eq_left (by omega)]
        exact this)
    rw [hl] at this
    exact this

theorem readBits_needs (n : Nat) : NeedsBits (readBits n) n := by
  intro s hwf hp hsl hlt
  unfold readBits
  by_cases h : 8 * s.count < s.pos + 8 * (n / 8)
  · obtain ⟨a, s1, h1, h2, h3⟩ := decodeOctetStringNoLength_needs (n / 8) s hwf hp hsl h
    exact ⟨a, s1, by rw [bind_ok h1]; simp, h2, h3⟩
  · obtain ⟨⟨b, l⟩, s1, h1, h2, h3, h4⟩ := decodeOctetStringNoLength_safe (n / 8) s hwf hp hsl
    cases b with
    | false => exact ⟨l, s1, by rw [bind_ok h1]; simp, h2, h3⟩
    | true =>
      obtain ⟨k1, k2, k3⟩ := h4 rfl
      have hmv := decodeOctetStringNoLength_pos h1
      obtain ⟨a, s2, m1, m2, m3⟩ := readPartialByte_needs (n := n % 8) (by omega) s1 ⟨k1, by rw [h3, h2]; exact hwf.cap⟩
        (by rw [h3]; exact k2) (by simp only [Slack, h3, h2]; exact hsl) (by rw [h3, hmv]; omega)
      refine ⟨l, s2, ?_, m2.trans h2, m3.trans h3⟩
      rw [bind_ok h1]
      have : n % 8 > 0 := by omega
      simp only [true_and, this, if_true]
      rw [bind_ok m1]
      simp

theorem readBits_post (n : Nat) : Post (readBits n) (fun l => l.length = (n + 7) / 8) := by
  unfold readBits
  refine (decodeOctetStringNoLength_post (n / 8)).bind' (fun a ha => ?_) (fun a => ?_)
  · simp only [true_and]
    refine Post.ite (fun h => ?_) (fun h => Post.pure (fun _ => by omega))
    refine Post.bind (fun p => ?_)
    obtain ⟨ok, b⟩ := p
    refine Post.ite (fun _ => Post.pure (fun _ => by simp only [List.length_append, List.length_singleton]; omega)) (fun _ => Post.false)
  · simp only [Bool.false_eq_true, false_and, if_false]
    exact Post.false

/-- Whatever `readBits` returns fits in the bytes of `n` bits. -/
theorem readBits_len {n : Nat} {s s' : BitStream} {b : Bool} {l : List Byte} (h : readBits n s = .ok ((b, l), s')) :
    l.length ≤ (n + 7) / 8 := by
  unfold readBits at h
  rw [bind_def] at h
  split at h
  · rename_i p s1 e1
    obtain ⟨r, bytes⟩ := p
    have hb : bytes.length ≤ n / 8 := by
      cases r with
      | true => exact Nat.le_of_eq (decodeOctetStringNoLength_post _ _ _ _ e1)
      | false => rw [decodeOctetStringNoLength_fail e1]; simp
    simp only at h
    split at h
    · rename_i hc
      rw [bind_def] at h
      split at h
      · rename_i q s2 e2
        obtain ⟨ok, b2⟩ := q
        simp only at h
        split at h
        · simp only [pure_run, Res.ok.injEq, Prod.mk.injEq] at h
          rw [← h.1.2]; simp; omega
        · simp only [pure_run, Res.ok.injEq, Prod.mk.injEq] at h
          rw [← h.1.2]; omega
      · cases h
      · cases h
    · simp only [pure_run, Res.ok.injEq, Prod.mk.injEq] at h
      rw [← h.1.2]; omega
  · cases h
  · cases h

theorem readBitsInto_reads {w : List Bool} {r arr : List Byte} {off : Nat} (h : Packed w r)
    (hcap : off / 8 + (w.length + 7) / 8 ≤ arr.length) :
    Reads (readBitsInto off w.length arr) (true, arr.take (off / 8) ++ r ++ arr.drop (off / 8 + r.length)) w ∧
    Short (readBitsInto off w.length arr) w := by
  unfold readBitsInto
  have e : ∀ l, arrPut arr (off / 8) ((w.length + 7) / 8) l = pure (arr.take (off / 8) ++ l ++ arr.drop (off / 8 + l.length)) :=
    fun l => arrPut_ok hcap
  simp only [e, pure_bind]
  constructor
  · exact (readBits_reads h).map (h := fun p : Bool × List Byte => (p.1, arr.take (off / 8) ++ p.2 ++ arr.drop (off / 8 + p.2.length)))
  · exact ((readBits_needs w.length).short rfl).map
      (h := fun p : Bool × List Byte => (p.1, arr.take (off / 8) ++ p.2 ++ arr.drop (off / 8 + p.2.length))) (fun _ h => h)

theorem readBitsInto_safe {off n N : Nat} {arr : List Byte} (hcap : off / 8 + (n + 7) / 8 ≤ N) (hN : arr.length = N) :
    Safe (readBitsInto off n arr) ∧ Post (readBitsInto off n arr) (fun a => a.length = N) := by
  unfold readBitsInto
  have e : ∀ l, arrPut arr (off / 8) ((n + 7) / 8) l = pure (arr.take (off / 8) ++ l ++ arr.drop (off / 8 + l.length)) :=
    fun l => arrPut_ok (by omega)
  simp only [e, pure_bind]
  constructor
  · exact (readBits_safe n).map
      (h := fun p : Bool × List Byte => (p.1, arr.take (off / 8) ++ p.2 ++ arr.drop (off / 8 + p.2.length))) (fun _ h => h)
  · refine (readBits_post n).bind' (fun a ha => Post.pure (fun _ => ?_)) (fun a => Post.false)
    simp only [List.length_append, List.length_take, List.length_drop]; omega

theorem Packed.exists_take (l : List Bool) : ∃ P : Nat → List Byte, ∀ k, Packed (l.take k) (P k) :=
  ⟨fun k => (packed_exists (l.take k)).choose, fun k => (packed_exists (l.take k)).choose_spec⟩

theorem bitBlock {l : List Bool} {P : Nat → List Byte} (hP : ∀ k, Packed (l.take k) (P k)) {arr : List Byte}
    (hcap : (l.length + 7) / 8 ≤ arr.length) {off n : Nat} (hoff : off % 8 = 0) (hn : off + n ≤ l.length) :
    Reads (readBitsInto off n (P off ++ arr.drop (P off).length)) (true, P (off + n) ++ arr.drop (P (off + n)).length)
      ((l.drop off).take n) ∧
    Short (readBitsInto off n (P off ++ arr.drop (P off).length)) ((l.drop off).take n) := by
  obtain ⟨r, hr⟩ := packed_exists ((l.drop off).take n)
  have hl : ((l.drop off).take n).length = n := by simp; omega
  have hPl : (P off).length = off / 8 := by
    rw [(hP off).1, List.length_take]; omega
  have hal : (P off ++ arr.drop (P off).length).length = arr.length := by simp; omega
  have := readBitsInto_reads (off := off) (arr := P off ++ arr.drop (P off).length) hr (by rw [hl, hal]; omega)
  rw [hl] at this
  have hsum : P off ++ r = P (off + n) := by
    refine Packed.unique ((hP off).append (by rw [List.length_take]; omega) hr) ?_
    have := hP (off + n)
    rwa [List.take_add] at this
  have e : (P off ++ arr.drop (P off).length).take (off / 8) ++ r ++ (P off ++ arr.drop (P off).length).drop (off / 8 + r.length) =
      P (off + n) ++ arr.drop (P (off + n)).length := by
    rw [← hsum, ← hPl, List.take_left, List.drop_append, List.drop_drop, List.drop_of_length_le (by omega)]
    simp only [List.nil_append, List.append_assoc, List.length_append]
    congr 3
    omega
  rw [e] at this
  exact this

theorem decodeBitString_reads {arr r : List Byte} {l : List Bool} {lo hi : Nat} (h1 : lo ≤ l.length) (h2 : l.length ≤ hi)
    (hcap : (l.length + 7) / 8 ≤ arr.length) (hr : Packed l r) (hne : hi < 65536 ∨ 1 ≤ l.length) :
    Reads (decodeBitString arr lo hi) (true, (l.length, r ++ arr.drop r.length)) (sizedCode lo hi (l.map fun b => [b])) ∧
    Short (decodeBitString arr lo hi) (sizedCode lo hi (l.map fun b => [b])) := by
  obtain ⟨P, hP⟩ := Packed.exists_take l
  have hP0 : P 0 = [] := Packed.unique (hP 0) Packed.nil
  have hPl : P l.length = r := Packed.unique (by have := hP l.length; rwa [List.take_length] at this) hr
  unfold decodeBitString sizedCode
  rw [List.length_map]
  by_cases h : hi < 65536
  · rw [if_pos h, if_pos h, flatten_singletons]
    obtain ⟨rd, sd⟩ := sizeDet_reads h1 h2 h (lo ≠ hi) Iff.rfl
    obtain ⟨rb, sb⟩ := bitBlock hP hcap (off := 0) (n := l.length) rfl (by omega)
    rw [hP0, List.drop_zero, List.take_length, Nat.zero_add, hPl] at rb
    rw [hP0, List.drop_zero, List.take_length] at sb
    simp only [List.nil_append, List.length_nil, List.drop_zero] at rb sb
    constructor
    · refine rd.bind ?_
      rw [if_pos rfl]
      simp only [Int.toNat_natCast]
      exact rb.map (h := fun p : Bool × List Byte => (p.1, (l.length, p.2)))
    · refine sd.bind rd ?_ (fun a => ⟨(0, arr), by rw [if_neg (by simp)]⟩)
      rw [if_pos rfl]
      simp only [Int.toNat_natCast]
      exact sb.map (h := fun p : Bool × List Byte => (p.1, (l.length, p.2))) (fun _ h => h)
  · rw [if_neg h, if_neg h]
    have := fragDecode_reads (blk := readBitsInto) (max := hi) (l := l.map fun b => [b])
      (S := fun k => P k ++ arr.drop (P k).length) (by rw [List.length_map]; omega) (by rw [List.length_map]; omega) (by
        intro off n hoff hn
        rw [List.length_map] at hn
        rw [← List.map_drop, ← List.map_take, flatten_singletons]
        exact bitBlock hP hcap (by omega) hn)
    rw [List.length_map, hP0, hPl] at this
    exact this

theorem decodeBitString_safe {arr : List Byte} {lo hi : Nat} (hlh : lo ≤ hi) (h : (hi + 7) / 8 ≤ arr.length) :
    Safe (decodeBitString arr lo hi) ∧ Post (decodeBitString arr lo hi) (fun r => r.1 ≤ hi ∧ r.2.length = arr.length) := by
  unfold decodeBitString
  by_cases hlt : hi < 65536
  · rw [if_pos hlt]
    have hq : Safe (if lo ≠ hi then decodeConstraintWholeNumber lo hi else pure (true, (lo : Int))) :=
      Safe.ite (fun _ => decodeConstraintWholeNumber_safe (by omega) (by omega) (by omega) (by omega)) (fun _ => Safe.pure _ _)
    have hp : Post (if lo ≠ hi then decodeConstraintWholeNumber lo hi else pure (true, (lo : Int))) (fun v => v ≤ hi) :=
      Post.ite (fun _ => (decodeConstraintWholeNumber_post (by omega) (by omega) (by omega) (by omega)).mono (fun _ h => h.2))
        (fun _ => Post.pure (fun _ => by omega))
    constructor
    · refine hq.bindP hp (fun a ha => ?_) (fun a => ⟨(0, arr), by rw [if_neg (by simp)]⟩)
      rw [if_pos rfl]
      exact (readBitsInto_safe (N := arr.length) (by omega) rfl).1.map
        (h := fun p : Bool × List Byte => (p.1, (a.toNat, p.2))) (fun _ h => h)
    · refine hp.bind' (fun a ha => ?_) (fun a => by rw [if_neg (by simp)]; exact Post.false)
      rw [if_pos rfl]
      refine (readBitsInto_safe (N := arr.length) (by show 0 / 8 + (a.toNat + 7) / 8 ≤ _; omega) rfl).2.bind'
        (fun b hb => Post.pure (fun _ => ⟨by show a.toNat ≤ hi; omega, hb⟩)) (fun b => Post.false)
  · rw [if_neg hlt]
    exact fragDecode_safe (I := fun a : List Byte => a.length = arr.length)
      (fun off n st _ h2 hI => readBitsInto_safe (by omega) hI) rfl

/-- The code of the empty list of items is reported as an error. -/
theorem fragDecode_empty {σ : Type} {blk : (off n : Nat) → σ → M (Bool × σ)} {max : Nat} {st st' : σ}
    (hblk : Reads (blk 0 0 st) (true, st') []) : Reads (fragDecode blk max st) (false, (0, st')) (fragmentedCode []) := by
  have e : fragmentedCode [] = bitsMsb 8 0 ++ [] := by rw [frag_small (by simp)]; rfl
  rw [e]
  refine (lengthOctet_reads (n := 0) (by omega)).1.bind ?_
  rw [if_pos rfl]
  have h1 : fragDecodeLoop blk max (max + 1) ((0 : Nat) : Int).toNat 0 st = pure (true, (0, 0, st)) := rfl
  have h2 : fragDecodeLast 0 = pure (true, 0) := rfl
  simp only [h1, pure_bind, h2, if_true]
  rw [if_pos (by omega)]
  refine hblk.bind (w2 := []) ?_
  rw [if_pos rfl, if_neg (by omega)]
  exact Reads.pure _

end Asn1
