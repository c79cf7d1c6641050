import Verif.Proof.GenFrag
import Verif.Proof.Search
import Verif.Proof.AcnStrings
/-! Generated code: ENUMERATED, strings, SEQUENCE OF. -/
namespace Asn1

/-! ### sized items -/

theorem sizedCodeGen_small {lo hi : Nat} {l : List (List Bool)} (h : hi < 65536) :
    sizedCodeGen false lo hi l = constrainedCode lo hi l.length ++ l.flatten := by
  unfold sizedCodeGen sizedCode
  rw [if_neg (by simp; omega), if_pos h]

theorem sizedCodeGen_fixed {n : Nat} {l : List (List Bool)} (h : n < 65536) : sizedCodeGen false n n l = l.flatten := by
  rw [sizedCodeGen_small h, constrainedCode_self, List.nil_append]

section
variable {α : Type} {c : α → List Bool}

theorem sizedEnc_appends {it : Bool → Nat → M Bool} {xs : List α} (h : ∀ i x, xs[i]? = some x → Appends (it true i) true (c x))
    {lo hi : Nat} (h1 : lo ≤ xs.length) (h2 : xs.length ≤ hi) :
    Appends (if hi < 65536 then
        if lo = hi then encLoop (it true) lo 0
        else do
          encodeConstraintWholeNumber (xs.length : Int) lo hi
          encLoop (it true) xs.length 0
      else fragAnyEncode (fun ret off n => encLoopAll (it ret) ret n off) lo hi xs.length) true
      (sizedCodeGen false lo hi (xs.map c)) := by
  have hall := encLoop_block h (off := 0) (n := xs.length) (by omega)
  rw [List.drop_zero, List.take_of_length_le (by simp)] at hall
  by_cases hs : hi < 65536
  · rw [if_pos hs]
    by_cases e : lo = hi
    · have e1 : lo = xs.length := by omega
      rw [if_pos e, ← e, e1, sizedCodeGen_fixed (by omega)]
      exact hall
    · rw [if_neg e, sizedCodeGen_small hs, List.length_map]
      exact (encodeConstraintWholeNumber_appends (by omega) (by omega) (by omega)).bind hall
  · rw [if_neg hs]
    have := fragAnyEncode_appends (blk := fun ret off n => encLoopAll (it ret) ret n off) (l := xs.map c) (lo := lo) (hi := hi)
      (by simpa using h1) (by simpa using h2) hs (fun off n _ hn => encLoopAll_block h (by simpa using hn))
    rwa [List.length_map] at this

theorem sizedDec_reads {T : Prop} {item : M (Bool × α)} {bad : α → Prop} (hsafe : T → ∀ a, bad a → Safe item) {xs : List α}
    (h : ∀ x ∈ xs, Reads item (true, x) (c x) ∧ (T → WShort item bad (c x))) {lo hi : Nat} (h1 : lo ≤ xs.length) (h2 : xs.length ≤ hi)
    (hT : T → ¬ (lo = hi ∧ 65536 ≤ hi)) :
    Reads (decSeqOf item lo hi) (true, xs) (sizedCodeGen false lo hi (xs.map c)) ∧
    (T → WShort (decSeqOf item lo hi) (AnyBad bad) (sizedCodeGen false lo hi (xs.map c))) := by
  unfold decSeqOf
  have hall := decLoop_block hsafe h (off := 0) (n := xs.length) (by omega)
  rw [List.drop_zero, List.take_of_length_le (l := xs.map c) (by simp), List.take_zero, Nat.zero_add, List.take_length] at hall
  by_cases hs : hi < 65536
  · rw [if_pos hs]
    by_cases e : lo = hi
    · have e1 : lo = xs.length := by omega
      rw [if_pos e, ← e, e1, sizedCodeGen_fixed (by omega)]
      exact hall
    · rw [if_neg e, sizedCodeGen_small hs, List.length_map]
      obtain ⟨r, s⟩ := decodeConstraintWholeNumber_reads (v := (xs.length : Int)) (lo := lo) (hi := hi) (by omega) (by omega) (by omega)
        (by omega) (by omega)
      constructor
      · refine r.bind ?_
        rw [if_pos rfl]
        exact hall.1
      · intro t
        refine (s.weak (fun _ => False)).bind r ?_ (fun _ h => h.elim) (fun a => ⟨[], by rw [if_neg (by simp)]⟩)
        rw [if_pos rfl]
        exact hall.2 t
  · rw [if_neg hs]
    have := fragAnyDecode_reads (T := T) (blkF := fun _ n acc => decLoopAll item true n acc) (blkV := fun _ n acc => decLoop item n acc)
      (l := xs.map c) (S := fun k => xs.take k) (lo := lo) (hi := hi) (by simpa using h1) (by simpa using h2) hs
      (bad := AnyBad bad) (fun t off n st hst => ⟨decLoop_safe (hsafe t _ hst.choose_spec.2) _ _, decLoop_bad hst⟩)
      (fun e off n _ hn => ⟨decLoopAll_block (fun x hx => (h x hx).1) (by simpa using hn), fun t => absurd ⟨e, by omega⟩ (hT t)⟩)
      (fun _ off n _ hn => decLoop_block hsafe h (by simpa using hn))
    rwa [List.length_map, List.take_length, List.take_zero] at this

end

/-! ### OCTET STRING -/

theorem encOctets_appends {lo hi : Nat} {arr : List Byte} (h1 : lo ≤ arr.length) (h2 : arr.length ≤ hi) :
    Appends (encOctets lo hi arr) true (sizedCodeGen false lo hi (arr.map byteBits)) := by
  unfold encOctets
  have hall := encodeOctetStringNoLength_appends (arr := arr) (n := arr.length) (Nat.le_refl _)
  rw [List.take_length, ← flatten_map_byteBits] at hall
  by_cases hs : hi < 65536
  · rw [if_pos hs]
    by_cases e : lo = hi
    · have e1 : lo = arr.length := by omega
      rw [if_pos e, ← e, e1, sizedCodeGen_fixed (by omega)]
      exact hall
    · rw [if_neg e, sizedCodeGen_small hs, List.length_map]
      exact (encodeConstraintWholeNumber_appends (by omega) (by omega) (by omega)).bind hall
  · rw [if_neg hs]
    have := fragAnyEncode_appends (l := arr.map byteBits) (lo := lo) (hi := hi)
      (blk := fun ret off n => encLoopAll (fun i => do
        let b ← tblGet arr i
        let _ ← appendByte0 b
        pure ret) ret n off)
      (by simpa using h1) (by simpa using h2) hs
      (fun off n _ hn => encLoopAll_block (xs := arr) (fun i x hx => by
        rw [tblGet_ok hx, pure_bind]
        have := (appendByte0_writes x).appends.bind (g := fun _ => (pure true : M Bool)) (Appends.pure true)
        rwa [List.append_nil] at this) (by simpa using hn))
    rwa [List.length_map] at this

theorem decOctets_reads {T : Prop} {lo hi : Nat} {arr : List Byte} (h1 : lo ≤ arr.length) (h2 : arr.length ≤ hi)
    (hT : T → lo = hi ∨ 1 ≤ lo ∨ 65536 ≤ hi) :
    Reads (decOctets lo hi) (true, arr) (sizedCodeGen false lo hi (arr.map byteBits)) ∧
    (T → WShort (decOctets lo hi) (fun l => l.length < lo) (sizedCodeGen false lo hi (arr.map byteBits))) := by
  unfold decOctets
  have hall := decodeOctetStringNoLength_reads arr
  rw [← flatten_map_byteBits] at hall
  by_cases hs : hi < 65536
  · rw [if_pos hs]
    by_cases e : lo = hi
    · have e1 : lo = arr.length := by omega
      rw [if_pos e, ← e, e1, sizedCodeGen_fixed (by omega)]
      refine ⟨hall, fun _ => ?_⟩
      rw [flatten_map_byteBits]
      exact ((decodeOctetStringNoLength_needs arr.length).short (bytesBits_length arr)).weak _
    · rw [if_neg e, sizedCodeGen_small hs, List.length_map]
      obtain ⟨r, s⟩ := decodeConstraintWholeNumber_reads (v := (arr.length : Int)) (lo := lo) (hi := hi) (by omega) (by omega) (by omega)
        (by omega) (by omega)
      refine ⟨r.bind hall, fun t => ?_⟩
      rw [flatten_map_byteBits]
      have hlo : 1 ≤ lo := by have := hT t; omega
      exact (octVar_wshort hs h1 h2).mono (fun l hl => by rw [hl]; exact hlo)
  · rw [if_neg hs]
    have hb : ∀ x ∈ arr, Reads readByte (true, x) (byteBits x) ∧ (T → WShort readByte (fun _ => False) (byteBits x)) :=
      fun x _ => ⟨readByte_reads x, fun _ => (readByte_needs.short (byteBits_length x)).weak _⟩
    have := fragAnyDecode_reads (T := T) (blkF := fun _ n acc => decLoopAll readByte true n acc) (blkV := fun _ n acc => decLoop readByte n acc)
      (l := arr.map byteBits) (S := fun k => arr.take k) (lo := lo) (hi := hi) (by simpa using h1) (by simpa using h2) hs
      (bad := AnyBad (fun _ => False)) (fun t off n st hst => ⟨decLoop_safe readByte_safe _ _, decLoop_bad hst⟩)
      (fun e off n _ hn => ⟨decLoopAll_block (fun x hx => (hb x hx).1) (by simpa using hn), fun t => readByteLoop_short (by
        rw [List.length_map] at hn
        rw [← List.map_drop, ← List.map_take, flatten_map_byteBits, bytesBits_length]; simp; omega)⟩)
      (fun _ off n _ hn => decLoop_block (fun _ _ _ => readByte_safe) hb (by simpa using hn))
    rw [List.length_map, List.take_length, List.take_zero] at this
    exact ⟨this.1, fun t => (this.2 t).mono (fun _ ⟨_, _, h⟩ => h.elim)⟩

/-- Sizes for which the length, if any, is checked. -/
theorem decOctets_strict {T : Prop} {lo hi : Nat} {arr : List Byte} (h1 : lo ≤ arr.length) (h2 : arr.length ≤ hi)
    (hT : T → lo = hi ∨ 65536 ≤ hi) :
    Reads (decOctets lo hi) (true, arr) (sizedCodeGen false lo hi (arr.map byteBits)) ∧
    (T → Short (decOctets lo hi) (sizedCodeGen false lo hi (arr.map byteBits))) := by
  obtain ⟨r, s⟩ := decOctets_reads (T := T) h1 h2 (fun t => by have := hT t; omega)
  refine ⟨r, fun t => ?_⟩
  unfold decOctets
  by_cases hs : hi < 65536
  · rw [if_pos hs]
    have e : lo = hi := by have := hT t; omega
    have e1 : lo = arr.length := by omega
    rw [if_pos e, ← e, e1, sizedCodeGen_fixed (by omega), flatten_map_byteBits]
    exact (decodeOctetStringNoLength_needs arr.length).short (bytesBits_length arr)
  · rw [if_neg hs]
    have hb : ∀ x ∈ arr, Reads readByte (true, x) (byteBits x) ∧ (T → WShort readByte (fun _ => False) (byteBits x)) :=
      fun x _ => ⟨readByte_reads x, fun _ => (readByte_needs.short (byteBits_length x)).weak _⟩
    have := fragAnyDecode_reads (T := T) (blkF := fun _ n acc => decLoopAll readByte true n acc) (blkV := fun _ n acc => decLoop readByte n acc)
      (l := arr.map byteBits) (S := fun k => arr.take k) (lo := lo) (hi := hi) (by simpa using h1) (by simpa using h2) hs
      (bad := AnyBad (fun _ => False)) (fun t off n st hst => ⟨decLoop_safe readByte_safe _ _, decLoop_bad hst⟩)
      (fun e off n _ hn => ⟨decLoopAll_block (fun x hx => (hb x hx).1) (by simpa using hn), fun t => readByteLoop_short (by
        rw [List.length_map] at hn
        rw [← List.map_drop, ← List.map_take, flatten_map_byteBits, bytesBits_length]; simp; omega)⟩)
      (fun _ off n _ hn => decLoop_block (fun _ _ _ => readByte_safe) hb (by simpa using hn))
    rw [List.length_map, List.take_length, List.take_zero] at this
    exact (this.2 t).strong (fun _ ⟨_, _, h⟩ => h)

/-! ### BIT STRING -/

theorem packed_take {w : List Bool} {arr : List Byte} (h : Packed w arr) : (bytesBits arr).take w.length = w := by
  rw [h.2]; simp

theorem encBits_appends {lo hi : Nat} {arr : List Byte} {w : List Bool} (hp : Packed w arr) (h1 : lo ≤ w.length) (h2 : w.length ≤ hi) :
    Appends (encBits lo hi w.length arr) true (sizedCodeGen false lo hi (w.map fun b => [b])) := by
  unfold encBits
  have hlen := hp.1
  have hall := (appendBits_appends (arr := arr) (n := w.length) (by omega)).thenTrue
  rw [packed_take hp, ← flatten_singletons w] at hall
  rw [flatten_singletons w] at hall
  by_cases hs : hi < 65536
  · rw [if_pos hs]
    by_cases e : lo = hi
    · have e1 : lo = w.length := by omega
      rw [if_pos e, ← e, e1, sizedCodeGen_fixed (by omega), flatten_singletons]
      exact hall
    · rw [if_neg e, sizedCodeGen_small hs, List.length_map, flatten_singletons]
      exact (encodeConstraintWholeNumber_appends (by omega) (by omega) (by omega)).bind hall
  · rw [if_neg hs]
    have := fragAnyEncode_appends (l := w.map fun b => [b]) (lo := lo) (hi := hi)
      (blk := fun ret off k => do
        appendBits (arr.drop (off / 8)) k
        pure ret)
      (by simpa using h1) (by simpa using h2) hs
      (fun off n hoff hn => by
        rw [List.length_map] at hn
        rw [← List.map_drop, ← List.map_take, flatten_singletons]
        have := (appendBits_appends (arr := arr.drop (off / 8)) (n := n) (by simp; omega)).thenTrue
        rw [bytesBits_drop, show 8 * (off / 8) = off by omega, hp.2, List.drop_append_of_le_length (by omega),
          List.take_append_of_le_length (by simp; omega)] at this
        exact this)
    rwa [List.length_map] at this

theorem decBits_reads {lo hi : Nat} {arr : List Byte} {w : List Bool} (hp : Packed w arr) (h1 : lo ≤ w.length) (h2 : w.length ≤ hi) :
    Reads (decBits lo hi) (true, (w.length, arr)) (sizedCodeGen false lo hi (w.map fun b => [b])) ∧
    Short (decBits lo hi) (sizedCodeGen false lo hi (w.map fun b => [b])) := by
  unfold decBits
  have rb := readBits_reads hp
  have sb := (readBits_needs w.length).short (w := w) rfl
  by_cases hs : hi < 65536
  · rw [if_pos hs]
    by_cases e : lo = hi
    · have e1 : lo = w.length := by omega
      rw [if_pos e, ← e, e1, sizedCodeGen_fixed (by omega), flatten_singletons]
      exact ⟨rb.map (h := fun p : Bool × List Byte => (p.1, (w.length, p.2))),
        sb.map (h := fun p : Bool × List Byte => (p.1, (w.length, p.2))) (fun _ h => h)⟩
    · rw [if_neg e, sizedCodeGen_small hs, List.length_map, flatten_singletons]
      obtain ⟨r, s⟩ := decodeConstraintWholeNumber_reads (v := (w.length : Int)) (lo := lo) (hi := hi) (by omega) (by omega) (by omega)
        (by omega) (by omega)
      constructor
      · refine r.bind ?_
        rw [if_pos rfl]
        exact rb.map (h := fun p : Bool × List Byte => (p.1, (w.length, p.2)))
      · refine s.bind r ?_ (fun a => ⟨(0, []), by rw [if_neg (by simp)]⟩)
        rw [if_pos rfl]
        exact sb.map (h := fun p : Bool × List Byte => (p.1, (w.length, p.2))) (fun _ h => h)
  · rw [if_neg hs]
    obtain ⟨P, hP⟩ := Packed.exists_take w
    have hb : ∀ off n, off % 16384 = 0 → off + n ≤ (w.map fun b => [b]).length →
        Reads ((fun (_ n : Nat) (st : Nat × List Byte) => do
            let p ← readBits n
            pure (p.1, (st.1 + n, st.2 ++ p.2))) off n (off, P off)) (true, (off + n, P (off + n)))
          (((w.map fun b => [b]).drop off).take n).flatten ∧
        (True → Short ((fun (_ n : Nat) (st : Nat × List Byte) => do
            let p ← readBits n
            pure (p.1, (st.1 + n, st.2 ++ p.2))) off n (off, P off)) (((w.map fun b => [b]).drop off).take n).flatten) := by
      intro off n hoff hn
      rw [List.length_map] at hn
      rw [← List.map_drop, ← List.map_take, flatten_singletons]
      obtain ⟨r, hr⟩ := packed_exists ((w.drop off).take n)
      have hl : ((w.drop off).take n).length = n := by simp; omega
      have hPo : P (off + n) = P off ++ r := by
        apply Packed.unique (hP (off + n))
        rw [List.take_add]
        exact Packed.append (by rw [List.length_take]; omega) (hP off) hr
      rw [hPo]
      have r1 := readBits_reads hr
      have s1 := (readBits_needs n).short hl
      rw [hl] at r1
      exact ⟨r1.map (h := fun p : Bool × List Byte => (p.1, (off + n, P off ++ p.2))),
        fun _ => s1.map (h := fun p : Bool × List Byte => (p.1, (off + n, P off ++ p.2))) (fun _ h => h)⟩
    have h0 : P 0 = [] := Packed.unique (hP 0) (by rw [List.take_zero]; exact Packed.nil)
    have hn : P w.length = arr := Packed.unique (hP w.length) (by rw [List.take_length]; exact hp)
    have := fragAnyDecode_reads (T := True) (l := w.map fun b => [b])
      (blkF := fun (_ n : Nat) (st : Nat × List Byte) => do
            let p ← readBits n
            pure (p.1, (st.1 + n, st.2 ++ p.2)))
      (blkV := fun (_ n : Nat) (st : Nat × List Byte) => do
            let p ← readBits n
            pure (p.1, (st.1 + n, st.2 ++ p.2)))
      (S := fun k => (k, P k)) (lo := lo) (hi := hi)
      (by simpa using h1) (by simpa using h2) hs (bad := fun _ => False) (fun _ _ _ _ h => h.elim) (fun _ => hb)
      (fun _ off n h1 h2 => ⟨(hb off n h1 h2).1, fun t => ((hb off n h1 h2).2 t).weak _⟩)
    rw [List.length_map, h0, hn] at this
    exact ⟨this.1, (this.2 trivial).strong (fun _ h => h)⟩

/-! ### character strings -/

theorem ia5_set : (List.range 128).map (BitVec.ofNat 8) = ia5Set := by decide +kernel

theorem encChar_appends {alphabet : List Byte} {c : Byte} (hlt : alphabet.length < 2 ^ 31)
    (h128 : alphabet.length = 128 → alphabet = (List.range 128).map (BitVec.ofNat 8)) (hc : c ∈ alphabet) :
    Appends (encChar alphabet c) () (charCode alphabet c) := by
  unfold encChar charCode
  by_cases h : alphabet.length = 128
  · rw [if_pos h]
    have ha := h128 h
    rw [ha] at hc
    obtain ⟨k, hk, rfl⟩ := List.mem_map.1 hc
    rw [List.mem_range] at hk
    have hn : (BitVec.ofNat 8 k).toNat = k := by rw [BitVec.toNat_ofNat]; omega
    have hi : (BitVec.ofNat 8 k).toInt = k := by rw [BitVec.toInt_eq_toNat_of_lt (by omega), hn]
    have e : alphabet.idxOf (BitVec.ofNat 8 k) = k := by
      rw [ha, ia5_set, ia5_idx (by omega), hn]
    rw [hi, e, h]
    exact encodeConstraintWholeNumber_appends (by omega) (by omega) (by omega)
  · rw [if_neg h, getCharIndex_pure hc, pure_bind]
    exact indexStep hc hlt

theorem decChar_reads {alphabet : List Byte} {c : Byte} (hlt : alphabet.length < 2 ^ 31)
    (h128 : alphabet.length = 128 → alphabet = (List.range 128).map (BitVec.ofNat 8)) (hc : c ∈ alphabet) :
    Reads (decChar alphabet) (true, c) (charCode alphabet c) ∧ Short (decChar alphabet) (charCode alphabet c) := by
  unfold decChar charCode
  have hidx : alphabet.idxOf c < alphabet.length := List.idxOf_lt_length_iff.2 hc
  obtain ⟨r, s⟩ := decodeConstraintWholeNumber_reads (v := (alphabet.idxOf c : Int)) (lo := 0) (hi := (alphabet.length : Int) - 1)
    (by omega) (by omega) (by omega) (by omega) (by omega)
  by_cases h : alphabet.length = 128
  · rw [if_pos h]
    have ha := h128 h
    have hc' := hc
    rw [ha] at hc'
    obtain ⟨k, hk, rfl⟩ := List.mem_map.1 hc'
    rw [List.mem_range] at hk
    have hn : (BitVec.ofNat 8 k).toNat = k := by rw [BitVec.toNat_ofNat]; omega
    have e : alphabet.idxOf (BitVec.ofNat 8 k) = k := by
      rw [ha, ia5_set, ia5_idx (by omega), hn]
    rw [e] at r s ⊢
    have e2 : ((alphabet.length : Int) - 1) = 127 := by omega
    rw [e2] at r s ⊢
    have := r.map (h := fun q : Bool × Int => (q.1, BitVec.ofInt 8 q.2))
    simp only [BitVec.ofInt_natCast] at this
    exact ⟨this, s.map (h := fun q : Bool × Int => (q.1, BitVec.ofInt 8 q.2)) (fun _ h => h)⟩
  · rw [if_neg h]
    have hcond : (true = true) ∧ ¬ ((alphabet.idxOf c : Int) < 0 ∨ (alphabet.idxOf c : Int) > (alphabet.length : Int) - 1) := by
      refine ⟨rfl, ?_⟩; omega
    constructor
    · have := r.bind (g := fun q => if q.1 ∧ ¬ (q.2 < 0 ∨ q.2 > (alphabet.length : Int) - 1) then do
          let c ← tblGet alphabet q.2.toNat
          pure (true, c)
        else pure (false, 0#8)) (b := (true, c)) (w2 := []) (by
          rw [if_pos hcond, Int.toNat_natCast, tblGet_ok (idxOf_get hc), pure_bind]
          exact Reads.pure _)
      rwa [List.append_nil] at this
    · have := s.bind r (k := fun q => if q.1 ∧ ¬ (q.2 < 0 ∨ q.2 > (alphabet.length : Int) - 1) then do
          let c ← tblGet alphabet q.2.toNat
          pure (true, c)
        else pure (false, 0#8)) (w2 := []) (Short.nil _) (fun a => ⟨0#8, by rw [if_neg (by simp)]⟩)
      rwa [List.append_nil] at this

theorem decChar_safe {alphabet : List Byte} (hlt : alphabet.length < 2 ^ 31) (h0 : 0 < alphabet.length) : Safe (decChar alphabet) := by
  unfold decChar
  refine Safe.ite (fun _ => ?_) (fun _ => ?_)
  · exact (decodeConstraintWholeNumber_safe (lo := 0) (hi := 127) (by omega) (by omega) (by omega) (by omega)).map
      (h := fun q : Bool × Int => (q.1, BitVec.ofInt 8 q.2)) (fun _ h => h)
  · refine (decodeConstraintWholeNumber_safe (lo := 0) (hi := (alphabet.length : Int) - 1) (by omega) (by omega) (by omega) (by omega)).bind
      (fun a => ?_) (fun a => ⟨0#8, by rw [if_neg (by simp)]⟩)
    refine Safe.ite (fun h => ?_) (fun _ => Safe.pure _ _)
    have hb := h.2
    obtain ⟨x, hx⟩ : ∃ x, alphabet[a.toNat]? = some x := ⟨_, List.getElem?_eq_getElem (by dsimp only at hb; omega)⟩
    rw [tblGet_ok hx, pure_bind]
    exact Safe.pure _ _

theorem encStr_appends {alphabet chars : List Byte} {lo hi : Nat} (hlt : alphabet.length < 2 ^ 31)
    (h128 : alphabet.length = 128 → alphabet = (List.range 128).map (BitVec.ofNat 8))
    (h1 : lo ≤ chars.length) (h2 : chars.length ≤ hi) (hc : ∀ c ∈ chars, c ∈ alphabet) :
    Appends (encStr alphabet lo hi chars) true (sizedCodeGen false lo hi (chars.map (charCode alphabet))) := by
  unfold encStr
  refine sizedEnc_appends (xs := chars) (c := charCode alphabet) (it := fun (ret : Bool) (i : Nat) => do
    let c ← tblGet (chars ++ [0#8]) i
    encChar alphabet c
    pure ret) (fun i x hx => ?_) h1 h2
  have hi : i < chars.length := by
    rcases Nat.lt_or_ge i chars.length with h | h
    · exact h
    · rw [List.getElem?_eq_none h] at hx; cases hx
  rw [tblGet_ok (b := x) (by rw [List.getElem?_append_left hi]; exact hx), pure_bind]
  exact (encChar_appends hlt h128 (hc x (List.mem_of_getElem? hx))).thenTrue

theorem decStr_eq (alphabet : List Byte) (lo hi : Nat) : decStr alphabet lo hi = (do
    let p ← decSeqOf (decChar alphabet) lo hi
    pure (p.1, p.2.takeWhile (· ≠ 0#8))) := rfl

theorem decStr_reads {T : Prop} {alphabet chars : List Byte} {lo hi : Nat} (hlt : alphabet.length < 2 ^ 31)
    (h128 : alphabet.length = 128 → alphabet = (List.range 128).map (BitVec.ofNat 8))
    (h1 : lo ≤ chars.length) (h2 : chars.length ≤ hi) (hc : ∀ c ∈ chars, c ∈ alphabet ∧ c ≠ 0#8)
    (hT : T → ¬ (lo = hi ∧ 65536 ≤ hi)) :
    Reads (decStr alphabet lo hi) (true, chars) (sizedCodeGen false lo hi (chars.map (charCode alphabet))) ∧
    (T → Short (decStr alphabet lo hi) (sizedCodeGen false lo hi (chars.map (charCode alphabet)))) := by
  rw [decStr_eq]
  obtain ⟨r, s⟩ := sizedDec_reads (T := T) (item := decChar alphabet) (xs := chars) (c := charCode alphabet) (bad := fun _ => False)
    (fun _ _ h => h.elim)
    (fun x hx => ⟨(decChar_reads hlt h128 (hc x hx).1).1, fun _ => (decChar_reads hlt h128 (hc x hx).1).2.weak _⟩) h1 h2 hT
  replace s : T → Short _ _ := fun t => (s t).strong (fun _ ⟨_, _, h⟩ => h)
  have e : chars.takeWhile (· ≠ 0#8) = chars := by
    have : ∀ l : List Byte, (∀ c ∈ l, c ≠ 0#8) → l.takeWhile (· ≠ 0#8) = l := by
      intro l hl
      induction l with
      | nil => rfl
      | cons a l ih =>
        have ha := hl a (by simp)
        rw [List.takeWhile_cons, if_pos (by simp [ha]), ih (fun c hc => hl c (by simp [hc]))]
    exact this chars (fun c h => (hc c h).2)
  have r' := r.map (h := fun p : Bool × List Byte => (p.1, p.2.takeWhile (· ≠ 0#8)))
  simp only [e] at r'
  exact ⟨r', fun t => (s t).map (h := fun p : Bool × List Byte => (p.1, p.2.takeWhile (· ≠ 0#8))) (fun _ h => h)⟩

/-! ### ENUMERATED -/

theorem enumTable_perm (l : List Int) : (enumTable l).Perm l := List.mergeSort_perm _ _

theorem enumTable_sorted {l : List Int} (hn : l.Nodup) : (enumTable l).Pairwise (· < ·) := by
  have h1 : (enumTable l).Pairwise (fun a b => decide (a ≤ b) = true) :=
    List.pairwise_mergeSort (fun a b c h1 h2 => by simp at *; omega) (fun a b => by simp; omega) _
  have h2 : (enumTable l).Pairwise (· ≠ ·) := (enumTable_perm l).nodup_iff.2 hn
  refine (h1.and h2).imp ?_
  intro a b ⟨h, h'⟩
  simp at h; omega

theorem countP_sorted {l : List Int} (h : l.Pairwise (· < ·)) : ∀ (i : Nat) (v : Int), l[i]? = some v → l.countP (fun x => decide (x < v)) = i := by
  induction l with
  | nil => intro i v hv; simp at hv
  | cons a l ih =>
    rw [List.pairwise_cons] at h
    intro i v hv
    cases i with
    | zero =>
      rw [List.getElem?_cons_zero, Option.some.injEq] at hv
      subst hv
      rw [List.countP_eq_zero]
      intro x hx
      rcases List.mem_cons.1 hx with rfl | hx
      · simp
      · have := h.1 x hx; simp; omega
    | succ i =>
      rw [List.getElem?_cons_succ] at hv
      have := h.1 v (List.mem_of_getElem? hv)
      rw [List.countP_cons_of_pos (by simpa using this), ih h.2 i v hv]

theorem enum_rank {items allowed : List Int} (hn : items.Nodup) (hp : allowed.Perm items) {v : Int} (hv : v ∈ items) :
    (enumTable allowed)[items.countP (fun x => decide (x < v))]? = some v ∧
    (enumTable allowed).length = items.length ∧ (enumTable allowed).Pairwise (· < ·) := by
  have hp' : (enumTable allowed).Perm items := (enumTable_perm allowed).trans hp
  have hs := enumTable_sorted (l := allowed) (hp.nodup_iff.2 hn)
  refine ⟨?_, hp'.length_eq, hs⟩
  obtain ⟨i, hi⟩ := List.mem_iff_getElem?.1 (hp'.mem_iff.2 hv)
  have := countP_sorted hs i v hi
  rw [hp'.countP_eq] at this
  rw [this, hi]

theorem binarySearch_pure {arr : List Int} (hs : arr.Pairwise (· < ·)) {i : Nat} {v : Int} (h : arr[i]? = some v) :
    binarySearch arr arr.length v = pure (i : Int) := by
  have hlt : i < arr.length := by
    rcases Nat.lt_or_ge i arr.length with h' | h'
    · exact h'
    · rw [List.getElem?_eq_none h'] at h; cases h
  rw [binarySearch, binarySearchLoop_finds arr v hs _ _ _ (by omega) (by omega) (by omega) i (by omega) (by omega) h]

/-- The number that is encoded is the place of the value in the list that is searched. -/
theorem encEnum_appends {items valid : List Int} {table : Option (List Int)} {v : Int} (hok : Ok (.enum items valid table)) (hv : v ∈ valid) :
    Appends (encEnum items table v) true (enumCode false items table v) := by
  simp only [Ok] at hok
  obtain ⟨hn, hlt, hsub, ht⟩ := hok
  have hvi := hsub v hv
  unfold encEnum enumCode
  cases table with
  | some allowed =>
    obtain ⟨hr, hl, hs⟩ := enum_rank hn (ht allowed rfl) hvi
    have hb := binarySearch_pure hs hr
    have hlt2 : items.countP (fun x => decide (x < v)) < items.length := by
      rcases Nat.lt_or_ge (items.countP (fun x => decide (x < v))) (enumTable allowed).length with h' | h'
      · omega
      · rw [List.getElem?_eq_none h'] at hr; cases hr
    rw [hl] at hb
    simp only [hb, pure_bind]
    rw [if_pos (by omega)]
    exact (encodeConstraintWholeNumber_appends (by omega) (by omega) (by omega)).thenTrue
  | none =>
    have hlt2 : items.idxOf v < items.length := List.idxOf_lt_length_iff.2 hvi
    have : items.idxOf? v = some (items.idxOf v) := by
      rw [List.idxOf?, List.findIdx?_eq_some_iff_findIdx_eq]
      exact ⟨hlt2, rfl⟩
    simp only [this]
    exact (encodeConstraintWholeNumber_appends (by omega) (by omega) (by omega)).thenTrue

theorem decEnum_reads {items valid : List Int} {table : Option (List Int)} {v : Int} (hok : Ok (.enum items valid table)) (hv : v ∈ valid) :
    Reads (decEnum items table) (true, v) (enumCode false items table v) ∧ Short (decEnum items table) (enumCode false items table v) := by
  simp only [Ok] at hok
  obtain ⟨hn, hlt, hsub, ht⟩ := hok
  have hvi := hsub v hv
  unfold decEnum enumCode
  cases table with
  | some allowed =>
    obtain ⟨hr, hl, hs⟩ := enum_rank hn (ht allowed rfl) hvi
    have hlt2 : items.countP (fun x => decide (x < v)) < items.length := by
      rcases Nat.lt_or_ge (items.countP (fun x => decide (x < v))) (enumTable allowed).length with h' | h'
      · omega
      · rw [List.getElem?_eq_none h'] at hr; cases hr
    simp only [Option.isSome_some, Bool.or_true, if_true]
    obtain ⟨r, s⟩ := decodeConstraintWholeNumber_reads (v := (items.countP (fun x => decide (x < v)) : Int)) (lo := 0)
      (hi := (items.length : Int) - 1) (by omega) (by omega) (by omega) (by omega) (by omega)
    generalize items.countP (fun x => decide (x < v)) = k at *
    rw [← List.append_nil (constrainedCode _ _ _)]
    constructor
    · refine r.bind ?_
      rw [if_pos ⟨rfl, by simp, by simp; omega⟩]
      simp only [Int.toNat_natCast]
      rw [tblGet_ok hr, pure_bind]
      exact Reads.pure _
    · exact s.bind r (Short.nil _) (fun a => ⟨items.headD 0, by rw [if_neg (by simp)]⟩)
  | none =>
    have hlt2 : items.idxOf v < items.length := List.idxOf_lt_length_iff.2 hvi
    have hg : items[items.idxOf v]? = some v := by rw [List.getElem?_eq_getElem hlt2, List.getElem_idxOf]
    simp only [Option.isSome_none, Bool.or_false, Bool.false_eq_true, if_false]
    obtain ⟨r, s⟩ := decodeConstraintWholeNumber_reads (v := (items.idxOf v : Int)) (lo := 0)
      (hi := (items.length : Int) - 1) (by omega) (by omega) (by omega) (by omega) (by omega)
    rw [← List.append_nil (constrainedCode _ _ _)]
    constructor
    · refine r.bind ?_
      rw [if_pos rfl]
      simp only [Int.toNat_natCast, hg]
      exact Reads.pure _
    · exact s.bind r (Short.nil _) (fun a => ⟨items.headD 0, by rw [if_neg (by simp)]⟩)

end Asn1
