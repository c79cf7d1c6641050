import Verif.Model.AcnStrings
import Verif.Spec.CStrings
import Verif.Proof.AcnAscii
/-! ACN character strings. -/
namespace Asn1

theorem appendByteF_appends (b : Byte) : Appends (appendByte b false) () (byteBits b) := (appendByte_writes b false).appends

/-! ### encoders -/

theorem encAsciiFixLoop_appends (str : List Byte) (l : List Byte) : ∀ i, l <+: str.drop i →
    Appends (encAsciiFixLoop str l.length i) () (bytesBits l) := by
  induction l with
  | nil => intro i _; exact Appends.pure _
  | cons c t ih =>
    intro i h
    obtain ⟨rest, hr⟩ := h
    have h0 : str[i]? = some c := by
      have := congrArg List.head? hr
      simpa [List.head?_drop] using this.symm
    have h1 : t <+: str.drop (i + 1) := by
      refine ⟨rest, ?_⟩
      have := congrArg List.tail hr
      simpa [List.tail_drop] using this
    rw [bytesBits_cons]
    simp only [List.length_cons, encAsciiFixLoop]
    rw [tblGet_ok h0, pure_bind]
    exact (appendByteF_appends c).bind (g := fun _ => encAsciiFixLoop str t.length (i + 1)) (ih (i + 1) h1)

theorem drop_head {α : Type} {l t rest : List α} {c : α} {i : Nat} (hr : c :: t ++ rest = l.drop i) :
    l[i]? = some c ∧ t ++ rest = l.drop (i + 1) := by
  constructor
  · have := congrArg List.head? hr
    simpa [List.head?_drop] using this.symm
  · have := congrArg List.tail hr
    simpa [List.tail_drop] using this

theorem encAsciiLoop_appends (str l : List Byte) : ∀ k i, l ++ [0#8] <+: str.drop i → 0#8 ∉ l → l.length ≤ k →
    Appends (encAsciiLoop str k i) () (bytesBits l) := by
  induction l with
  | nil =>
    intro k i h _ _
    obtain ⟨rest, hr⟩ := h
    cases k with
    | zero => exact Appends.pure _
    | succ k =>
      simp only [encAsciiLoop]
      rw [tblGet_ok (drop_head hr).1, pure_bind, if_neg (by simp)]
      exact Appends.pure _
  | cons c t ih =>
    intro k i h hz hk
    obtain ⟨rest, hr⟩ := h
    rw [List.cons_append, List.cons_append, ← List.cons_append] at hr
    obtain ⟨h0, h1⟩ := drop_head hr
    simp only [List.mem_cons, not_or] at hz
    obtain ⟨k, rfl⟩ : ∃ m, k = m + 1 := ⟨k - 1, by simp at hk; omega⟩
    simp only [encAsciiLoop]
    rw [tblGet_ok h0, pure_bind, if_pos (fun e => hz.1 e.symm), bytesBits_cons]
    exact (appendByteF_appends c).bind (g := fun _ => encAsciiLoop str k (i + 1)) (ih k (i + 1) ⟨rest, h1⟩ hz.2 (by simp at hk; omega))

theorem acnEncStrAsciiPrivate_appends {max : Nat} {obj str : List Byte} (h : HoldsString obj str) (hm : str.length ≤ max) :
    Appends (acnEncStrAsciiPrivate max obj) () (bytesBits str) :=
  encAsciiLoop_appends obj str max 0 (by rw [List.drop_zero]; exact h.1) h.2 hm

theorem appendBytesF_appends (l : List Byte) : Appends (appendBytesF l) () (bytesBits l) := by
  induction l with
  | nil => exact Appends.pure _
  | cons b t ih =>
    rw [bytesBits_cons]
    exact (appendByteF_appends b).bind (g := fun _ => appendBytesF t) ih

theorem strLen_eq {obj str : List Byte} (h : HoldsString obj str) : strLen obj = pure str.length := by
  obtain ⟨⟨rest, rfl⟩, hz⟩ := h
  induction str with
  | nil => rfl
  | cons c t ih =>
    simp only [List.mem_cons, not_or] at hz
    simp only [List.cons_append, strLen]
    rw [if_neg (fun e => hz.1 e.symm), ih hz.2, pure_bind]
    rfl

theorem getCharIndex_pure {set : List Byte} {c : Byte} (h : c ∈ set) : getCharIndex c set set.length = pure (set.idxOf c) := by
  obtain ⟨r, hr, h'⟩ := getCharIndexLoop_eq set c set.length 0 (by omega)
  rw [getCharIndex, hr]
  congr 1
  obtain ⟨i, hi⟩ := List.mem_iff_getElem?.1 h
  rcases h' with ⟨_, h'⟩ | ⟨_, h1, h2⟩
  · exact absurd hi (h' i (by omega))
  · have hlt : set.idxOf c < set.length := List.idxOf_lt_length_iff.2 h
    have hget : set[set.idxOf c]? = some c := by
      rw [List.getElem?_eq_getElem hlt, List.getElem_idxOf]
    rcases Nat.lt_trichotomy r (set.idxOf c) with hlt' | rfl | hgt
    · have hr' : r < set.length := by omega
      have : set[r] = c := by rw [List.getElem?_eq_getElem hr'] at h1; simpa using h1
      exact absurd this (List.not_of_lt_findIdx (p := fun x => x == c) (by simpa [List.idxOf] using hlt') |> fun q => by simpa using q)
    · rfl
    · exact absurd hget (h2 _ (by omega) hgt)

theorem indexStep {set : List Byte} {c : Byte} (h : c ∈ set) (hs : set.length < 2 ^ 31) :
    Appends (encodeConstraintWholeNumber (set.idxOf c : Nat) 0 ((set.length : Int) - 1)) ()
      (constrainedCode 0 ((set.length : Int) - 1) (set.idxOf c)) := by
  have hlt : set.idxOf c < set.length := List.idxOf_lt_length_iff.2 h
  exact encodeConstraintWholeNumber_appends (by omega) (by omega) (by omega)

theorem indexCode_cons (set : List Byte) (c : Byte) (t : List Byte) :
    indexCode set (c :: t) = constrainedCode 0 ((set.length : Int) - 1) (set.idxOf c) ++ indexCode set t := rfl

theorem encIndexFixLoop_appends (set str l : List Byte) (hs : set.length < 2 ^ 31) : ∀ i, l <+: str.drop i → Within set l →
    Appends (encIndexFixLoop set set.length str l.length i) () (indexCode set l) := by
  induction l with
  | nil => intro i _ _; exact Appends.pure _
  | cons c t ih =>
    intro i h hw
    obtain ⟨rest, hr⟩ := h
    obtain ⟨h0, h1⟩ := drop_head hr
    rw [indexCode_cons]
    simp only [List.length_cons, encIndexFixLoop]
    rw [tblGet_ok h0, pure_bind, getCharIndex_pure (hw c (by simp)), pure_bind]
    exact (indexStep (hw c (by simp)) hs).bind (g := fun _ => encIndexFixLoop set set.length str t.length (i + 1))
      (ih (i + 1) ⟨rest, h1⟩ (fun x hx => hw x (by simp [hx])))

theorem encIndexLoop_appends (set str l : List Byte) (hs : set.length < 2 ^ 31) : ∀ k i, l ++ [0#8] <+: str.drop i → 0#8 ∉ l →
    l.length ≤ k → Within set l → Appends (encIndexLoop set set.length str k i) () (indexCode set l) := by
  induction l with
  | nil =>
    intro k i h _ _ _
    obtain ⟨rest, hr⟩ := h
    cases k with
    | zero => exact Appends.pure _
    | succ k =>
      simp only [encIndexLoop]
      rw [tblGet_ok (drop_head hr).1, pure_bind, if_neg (by simp)]
      exact Appends.pure _
  | cons c t ih =>
    intro k i h hz hk hw
    obtain ⟨rest, hr⟩ := h
    rw [List.cons_append, List.cons_append, ← List.cons_append] at hr
    obtain ⟨h0, h1⟩ := drop_head hr
    simp only [List.mem_cons, not_or] at hz
    obtain ⟨k, rfl⟩ : ∃ m, k = m + 1 := ⟨k - 1, by simp at hk; omega⟩
    simp only [encIndexLoop]
    rw [tblGet_ok h0, pure_bind, if_pos (fun e => hz.1 e.symm), indexCode_cons, getCharIndex_pure (hw c (by simp)), pure_bind]
    exact (indexStep (hw c (by simp)) hs).bind (g := fun _ => encIndexLoop set set.length str k (i + 1))
      (ih k (i + 1) ⟨rest, h1⟩ hz.2 (by simp at hk; omega) (fun x hx => hw x (by simp [hx])))

theorem acnEncStrIndexPrivate_appends {max : Nat} {set obj str : List Byte} (hs : set.length < 2 ^ 31) (h : HoldsString obj str)
    (hm : str.length ≤ max) (hw : Within set str) :
    Appends (acnEncStrIndexPrivate max set set.length obj) () (indexCode set str) :=
  encIndexLoop_appends set obj str hs max 0 (by rw [List.drop_zero]; exact h.1) h.2 hm hw

/-! ### the destination -/

theorem dstZero_ok {dst : List Byte} {n : Nat} (h : n ≤ dst.length) : dstZero dst n = pure (List.replicate n 0#8 ++ dst.drop n) := by
  rw [dstZero, if_pos h]

theorem dstSet_ok {dst : List Byte} {i : Nat} (h : i < dst.length) (b : Byte) : dstSet dst i b = pure (dst.set i b) := by
  rw [dstSet, if_pos h]

/-- `l` stored from index `i` on. -/
def putAt (dst l : List Byte) (i : Nat) : List Byte := dst.take i ++ l ++ dst.drop (i + l.length)

theorem putAt_nil (dst : List Byte) (i : Nat) : putAt dst [] i = dst := by simp [putAt]

theorem putAt_cons {dst : List Byte} {c : Byte} {t : List Byte} {i : Nat} (h : i < dst.length) :
    putAt (dst.set i c) t (i + 1) = putAt dst (c :: t) i := by
  have e1 : (dst.set i c).take (i + 1) = dst.take i ++ [c] := by
    rw [List.take_add_one, List.take_set_of_le (Nat.le_refl _)]
    simp [h]
  have e2 : (dst.set i c).drop (i + 1 + t.length) = dst.drop (i + (t.length + 1)) := by
    rw [List.drop_set, if_pos (by omega)]
    congr 1; omega
  simp only [putAt, List.length_cons, e1, e2, List.append_assoc, List.cons_append, List.nil_append]

theorem putAt_length {dst l : List Byte} {i : Nat} (h : i + l.length ≤ dst.length) : (putAt dst l i).length = dst.length := by
  simp [putAt]; omega

theorem putAt_zero {max : Nat} {dst str : List Byte} (hm : str.length ≤ max + 1) :
    putAt (List.replicate (max + 1) 0#8 ++ dst.drop (max + 1)) str 0 = filled max str dst := by
  simp only [putAt, filled, List.take_zero, List.nil_append, Nat.zero_add, List.append_assoc]
  rw [List.drop_append, List.length_replicate, show str.length - (max + 1) = 0 by omega, List.drop_zero, List.drop_replicate]

theorem filled_set {max : Nat} {dst str : List Byte} (hm : str.length ≤ max) :
    (filled max str dst).set str.length 0#8 = filled max str dst := by
  apply List.ext_getElem?
  intro i
  rw [List.getElem?_set]
  split
  · subst_vars
    split
    · simp only [filled, List.append_assoc]
      rw [List.getElem?_append_right (Nat.le_refl _), Nat.sub_self, List.getElem?_append_left (by simp; omega)]
      rw [List.getElem?_replicate, if_pos (by omega)]
    · rename_i h; exact absurd (by simp [filled]; omega) h
  · rfl

/-! ### decoders -/

theorem decAsciiLoop_reads (l : List Byte) : ∀ i (dst : List Byte), i + l.length ≤ dst.length →
    Reads (decAsciiLoop l.length i dst) (true, putAt dst l i) (bytesBits l) ∧
    Short (decAsciiLoop l.length i dst) (bytesBits l) := by
  induction l with
  | nil => intro i dst _; rw [putAt_nil]; exact ⟨Reads.pure _, Short.nil _⟩
  | cons c t ih =>
    intro i dst h
    simp only [List.length_cons] at h
    obtain ⟨r, s⟩ := ih (i + 1) (dst.set i c) (by rw [List.length_set]; omega)
    rw [putAt_cons (by omega)] at r
    simp only [List.length_cons, decAsciiLoop]
    rw [bytesBits_cons]
    constructor
    · refine (readByte_reads c).bind ?_
      rw [if_pos rfl]; dsimp only; rw [dstSet_ok (by omega), pure_bind]; exact r
    · refine (readByte_needs.short (by simp)).bind (readByte_reads c) ?_ (fun a => ⟨dst, by rw [if_neg (by simp)]⟩)
      rw [if_pos rfl]; dsimp only; rw [dstSet_ok (by omega), pure_bind]; exact s

theorem decAsciiLoop_safe (k : Nat) : ∀ i (dst : List Byte), i + k ≤ dst.length →
    Safe (decAsciiLoop k i dst) ∧ Post (decAsciiLoop k i dst) (fun d => d.length = dst.length ∧ d.drop (i + k) = dst.drop (i + k)) := by
  induction k with
  | zero => intro i dst _; exact ⟨Safe.pure _ _, Post.pure (fun _ => ⟨rfl, rfl⟩)⟩
  | succ k ih =>
    intro i dst h
    simp only [decAsciiLoop]
    constructor
    · refine readByte_safe.bind (fun c => ?_) (fun a => ⟨dst, by rw [if_neg (by simp)]⟩)
      rw [if_pos rfl]; dsimp only; rw [dstSet_ok (by omega), pure_bind]
      exact (ih (i + 1) _ (by rw [List.length_set]; omega)).1
    · refine Post.bind (fun r => Post.ite (fun _ => ?_) (fun _ => Post.false))
      rw [dstSet_ok (by omega), pure_bind]
      refine (ih (i + 1) _ (by rw [List.length_set]; omega)).2.mono (fun d hd => ?_)
      rw [List.length_set, List.drop_set, if_pos (by omega)] at hd
      rw [show i + (k + 1) = i + 1 + k by omega]
      exact hd

theorem acnDecStrAsciiPrivate_reads {max : Nat} {dst str : List Byte} (h : max + 1 ≤ dst.length) (hm : str.length ≤ max) :
    Reads (acnDecStrAsciiPrivate max str.length dst) (true, filled max str dst) (bytesBits str) ∧
    Short (acnDecStrAsciiPrivate max str.length dst) (bytesBits str) := by
  unfold acnDecStrAsciiPrivate
  rw [dstZero_ok h, pure_bind, Int.toNat_natCast]
  have := decAsciiLoop_reads str 0 (List.replicate (max + 1) 0#8 ++ dst.drop (max + 1)) (by simp; omega)
  rwa [putAt_zero (by omega)] at this

theorem zeroed_length {max : Nat} {dst : List Byte} (h : max + 1 ≤ dst.length) :
    (List.replicate (max + 1) 0#8 ++ dst.drop (max + 1)).length = dst.length := by simp; omega

theorem zeroed_drop {max : Nat} {dst : List Byte} :
    (List.replicate (max + 1) 0#8 ++ dst.drop (max + 1)).drop (max + 1) = dst.drop (max + 1) := by simp

/-- What every string decoder guarantees about the destination: nothing outside the first `max + 1` bytes changes. -/
def Within1 (max : Nat) (dst d : List Byte) : Prop := d.length = dst.length ∧ d.drop (max + 1) = dst.drop (max + 1)

theorem drop_mono {a b : List Byte} {m n : Nat} (h : a.drop m = b.drop m) (hmn : m ≤ n) : a.drop n = b.drop n := by
  have := congrArg (List.drop (n - m)) h
  rw [List.drop_drop, List.drop_drop, show m + (n - m) = n by omega] at this
  exact this

theorem acnDecStrAsciiPrivate_safe {max : Nat} {n : Int} {dst : List Byte} (h : max + 1 ≤ dst.length) (hn : n ≤ max) :
    Safe (acnDecStrAsciiPrivate max n dst) ∧ Post (acnDecStrAsciiPrivate max n dst) (Within1 max dst) := by
  unfold acnDecStrAsciiPrivate
  rw [dstZero_ok h, pure_bind]
  have := decAsciiLoop_safe n.toNat 0 (List.replicate (max + 1) 0#8 ++ dst.drop (max + 1)) (by rw [zeroed_length h]; omega)
  refine ⟨this.1, this.2.mono (fun d hd => ?_)⟩
  rw [zeroed_length h] at hd
  exact ⟨hd.1, (drop_mono hd.2 (by omega)).trans zeroed_drop⟩

theorem decAsciiNullLoop_reads (nul : Byte) (l : List Byte) (hl : nul ∉ l) : ∀ k i (dst : List Byte), l.length < k → i + k ≤ dst.length →
    Reads (decAsciiNullLoop nul k i dst) (true, (putAt dst l i).set (i + l.length) 0#8) (bytesBits (l ++ [nul])) ∧
    Short (decAsciiNullLoop nul k i dst) (bytesBits (l ++ [nul])) := by
  induction l with
  | nil =>
    intro k i dst h hd
    obtain ⟨k, rfl⟩ : ∃ m, k = m + 1 := ⟨k - 1, by simp at h; omega⟩
    rw [putAt_nil, List.nil_append, bytesBits_cons]
    simp only [decAsciiNullLoop, List.length_nil, Nat.add_zero]
    constructor
    · refine (readByte_reads nul).bind ?_
      rw [if_pos rfl]; dsimp only; rw [if_neg (by simp), dstSet_ok (by omega), pure_bind]; exact Reads.pure _
    · exact (readByte_needs.short (by simp)).bind (readByte_reads nul) (Short.nil _) (fun a => ⟨dst, by rw [if_neg (by simp)]⟩)
  | cons c t ih =>
    intro k i dst h hd
    simp only [List.length_cons] at h
    simp only [List.mem_cons, not_or] at hl
    obtain ⟨k, rfl⟩ : ∃ m, k = m + 1 := ⟨k - 1, by omega⟩
    obtain ⟨r, s⟩ := ih hl.2 k (i + 1) (dst.set i c) (by omega) (by rw [List.length_set]; omega)
    rw [putAt_cons (by omega), show i + 1 + t.length = i + (c :: t).length by simp; omega] at r
    simp only [decAsciiNullLoop]
    rw [List.cons_append, bytesBits_cons]
    constructor
    · refine (readByte_reads c).bind ?_
      rw [if_pos rfl]; dsimp only; rw [if_pos (fun e => hl.1 e.symm), dstSet_ok (by omega), pure_bind]; exact r
    · refine (readByte_needs.short (by simp)).bind (readByte_reads c) ?_ (fun a => ⟨dst, by rw [if_neg (by simp)]⟩)
      rw [if_pos rfl]; dsimp only; rw [if_pos (fun e => hl.1 e.symm), dstSet_ok (by omega), pure_bind]; exact s

theorem acnDecStrAsciiNullTerminated_reads {max : Nat} {nul : Byte} {dst str : List Byte} (h : max + 1 ≤ dst.length)
    (hm : str.length ≤ max) (hn : nul ∉ str) :
    Reads (acnDecStrAsciiNullTerminated max nul dst) (true, filled max str dst) (bytesBits (str ++ [nul])) ∧
    Short (acnDecStrAsciiNullTerminated max nul dst) (bytesBits (str ++ [nul])) := by
  unfold acnDecStrAsciiNullTerminated
  rw [dstZero_ok h, pure_bind]
  have := decAsciiNullLoop_reads nul str hn (max + 1) 0 (List.replicate (max + 1) 0#8 ++ dst.drop (max + 1)) (by omega)
    (by rw [zeroed_length h]; omega)
  rwa [putAt_zero (by omega), Nat.zero_add, filled_set hm] at this

theorem decAsciiNullLoop_safe (nul : Byte) (k : Nat) : ∀ i (dst : List Byte), i + k ≤ dst.length →
    Safe (decAsciiNullLoop nul k i dst) ∧ Post (decAsciiNullLoop nul k i dst) (fun d => d.length = dst.length ∧ d.drop (i + k) = dst.drop (i + k)) := by
  induction k with
  | zero => intro i dst _; exact ⟨Safe.pure _ _, Post.false⟩
  | succ k ih =>
    intro i dst h
    simp only [decAsciiNullLoop]
    constructor
    · refine readByte_safe.bind (fun c => ?_) (fun a => ⟨dst, by rw [if_neg (by simp)]⟩)
      rw [if_pos rfl]; dsimp only
      rw [dstSet_ok (by omega), dstSet_ok (by omega), pure_bind, pure_bind]
      exact Safe.ite (fun _ => (ih (i + 1) _ (by rw [List.length_set]; omega)).1) (fun _ => Safe.pure _ _)
    · refine Post.bind (fun r => Post.ite (fun _ => ?_) (fun _ => Post.false))
      rw [dstSet_ok (by omega), dstSet_ok (by omega), pure_bind, pure_bind]
      refine Post.ite (fun _ => ?_) (fun _ => Post.pure (fun _ => ?_))
      · refine (ih (i + 1) _ (by rw [List.length_set]; omega)).2.mono (fun d hd => ?_)
        rw [List.length_set, List.drop_set, if_pos (by omega)] at hd
        rw [show i + (k + 1) = i + 1 + k by omega]
        exact hd
      · rw [List.length_set, List.drop_set, if_pos (by omega)]
        exact ⟨rfl, rfl⟩

theorem acnDecStrAsciiNullTerminated_safe {max : Nat} {nul : Byte} {dst : List Byte} (h : max + 1 ≤ dst.length) :
    Safe (acnDecStrAsciiNullTerminated max nul dst) ∧ Post (acnDecStrAsciiNullTerminated max nul dst) (Within1 max dst) := by
  unfold acnDecStrAsciiNullTerminated
  rw [dstZero_ok h, pure_bind]
  have := decAsciiNullLoop_safe nul (max + 1) 0 (List.replicate (max + 1) 0#8 ++ dst.drop (max + 1)) (by rw [zeroed_length h]; omega)
  refine ⟨this.1, this.2.mono (fun d hd => ?_)⟩
  rw [zeroed_length h] at hd
  exact ⟨hd.1, (drop_mono hd.2 (by omega)).trans zeroed_drop⟩

/-! several terminator bytes -/

theorem decAsciiMultLoop_reads (nul : List Byte) (hn : nul ≠ []) (ds : List Byte) : ∀ (k i : Nat) (win l dst : List Byte),
    win ++ l = ds ++ nul → win.length = nul.length → NoEarly nul ds → ds.length < k → i + k ≤ dst.length →
    Reads (decAsciiMultLoop nul nul.length k i win dst) (true, (putAt dst ds i).set (i + ds.length) 0#8) (bytesBits l) ∧
    Short (decAsciiMultLoop nul nul.length k i win dst) (bytesBits l) := by
  induction ds with
  | nil =>
    intro k i win l dst he hl hne hlt hd
    obtain ⟨k, rfl⟩ : ∃ m, k = m + 1 := ⟨k - 1, by omega⟩
    obtain ⟨rfl, rfl⟩ : win = nul ∧ l = [] := by
      have := congrArg List.length he
      simp only [List.length_append, List.length_nil] at this
      have hl0 : l = [] := List.eq_nil_of_length_eq_zero (by omega)
      subst hl0
      simpa using he
    simp only [decAsciiMultLoop]
    rw [memEq_pure (Nat.le_refl _) (Nat.le_refl _), pure_bind, if_pos (by simp), dstSet_ok (by omega), pure_bind, putAt_nil]
    exact ⟨Reads.pure _, Short.nil _⟩
  | cons d ds ih =>
    intro k i win l dst he hl hne hlt hd
    obtain ⟨k, rfl⟩ : ∃ m, k = m + 1 := ⟨k - 1, by omega⟩
    have hlen := congrArg List.length he
    simp only [List.length_append, List.length_cons] at hlen
    have hn0 : 0 < nul.length := List.length_pos_iff.2 hn
    obtain ⟨w, win, rfl⟩ : ∃ w t, win = w :: t := by
      cases win with
      | nil => simp at hl; omega
      | cons w t => exact ⟨w, t, rfl⟩
    obtain ⟨b, l, rfl⟩ : ∃ b t, l = b :: t := by
      cases l with
      | nil => simp at hlen hl; omega
      | cons b t => exact ⟨b, t, rfl⟩
    simp only [List.cons_append, List.cons.injEq] at he
    obtain ⟨rfl, he⟩ := he
    have hneq : ¬ (nul.take nul.length = (w :: win).take nul.length) := by
      intro e
      rw [List.take_length, ← hl, List.take_length] at e
      apply hne 0 (by simp)
      rw [List.drop_zero, List.cons_append, ← he, e, ← List.cons_append]
      exact List.prefix_append _ _
    simp only [List.length_cons] at hlt
    obtain ⟨r, s⟩ := ih k (i + 1) (win ++ [b]) l (dst.set i w) (by simpa using he) (by simpa using hl) (noEarly_tail hne)
      (by omega) (by rw [List.length_set]; omega)
    rw [putAt_cons (by omega), show i + 1 + ds.length = i + (w :: ds).length by simp; omega] at r
    simp only [decAsciiMultLoop]
    rw [memEq_pure (Nat.le_refl _) (by omega), pure_bind, if_neg (by simpa using hneq), tblGet_pure (by simp), pure_bind, bytesBits_cons]
    simp only [List.getElem_cons_zero]
    rw [dstSet_ok (by omega), pure_bind]
    constructor
    · refine (readByte_reads b).bind ?_
      rw [if_pos rfl]
      exact r
    · refine (readByte_needs.short (by simp)).bind (readByte_reads b) ?_ (fun a => ⟨dst.set i w, by rw [if_neg (by simp)]⟩)
      rw [if_pos rfl]
      exact s

theorem acnDecStrAsciiNullTerminatedMult_reads {max : Nat} {nul dst str : List Byte} (hn : nul ≠ []) (h10 : nul.length ≤ 10)
    (h : max + 1 ≤ dst.length) (hm : str.length ≤ max) (hne : NoEarly nul str) :
    Reads (acnDecStrAsciiNullTerminatedMult max nul dst) (true, filled max str dst) (bytesBits (str ++ nul)) ∧
    Short (acnDecStrAsciiNullTerminatedMult max nul dst) (bytesBits (str ++ nul)) := by
  unfold acnDecStrAsciiNullTerminatedMult
  have hsz : (if nul.length < 10 then nul.length else 10) = nul.length := by split <;> omega
  simp only [hsz]
  rw [dstZero_ok h, pure_bind]
  have hlw : ((str ++ nul).take nul.length).length = nul.length := by rw [List.length_take, List.length_append]; omega
  obtain ⟨r2, s2⟩ := decAsciiMultLoop_reads nul hn str (max + 1) 0 ((str ++ nul).take nul.length) ((str ++ nul).drop nul.length)
    (List.replicate (max + 1) 0#8 ++ dst.drop (max + 1)) (List.take_append_drop _ _) hlw hne (by omega) (by rw [zeroed_length h]; omega)
  rw [putAt_zero (by omega), Nat.zero_add, filled_set hm] at r2
  obtain ⟨r1, s1⟩ := windowFill_reads ((str ++ nul).take nul.length)
  rw [hlw] at r1 s1
  rw [show bytesBits (str ++ nul) = bytesBits ((str ++ nul).take nul.length) ++ bytesBits ((str ++ nul).drop nul.length) by
    rw [← bytesBits_append, List.take_append_drop]]
  constructor
  · refine r1.bind ?_
    rw [if_pos rfl]; exact r2
  · refine s1.bind r1 ?_ (fun a => ⟨List.replicate (max + 1) 0#8 ++ dst.drop (max + 1), by rw [if_neg (by simp)]⟩)
    rw [if_pos rfl]; exact s2

theorem decAsciiMultLoop_safe (nul : List Byte) (sz : Nat) (hsz : sz ≤ nul.length) (k : Nat) : ∀ i (win dst : List Byte),
    win.length = sz → i + k + 1 ≤ dst.length →
    Safe (decAsciiMultLoop nul sz k i win dst) ∧
    Post (decAsciiMultLoop nul sz k i win dst) (fun d => d.length = dst.length ∧ d.drop (i + k + 1) = dst.drop (i + k + 1)) := by
  induction k with
  | zero =>
    intro i win dst hw hd
    simp only [decAsciiMultLoop]
    rw [dstSet_ok (by omega), pure_bind, memEq_pure hsz (by omega), pure_bind]
    refine ⟨Safe.pure _ _, Post.pure (fun _ => ?_)⟩
    rw [List.length_set, List.drop_set, if_pos (by omega)]
    exact ⟨rfl, rfl⟩
  | succ k ih =>
    intro i win dst hw hd
    simp only [decAsciiMultLoop]
    rw [memEq_pure hsz (by omega), pure_bind]
    by_cases he : nul.take sz = win.take sz
    · rw [if_pos (by simpa using he), dstSet_ok (by omega), pure_bind]
      refine ⟨Safe.pure _ _, Post.pure (fun _ => ?_)⟩
      rw [List.length_set, List.drop_set, if_pos (by omega)]
      exact ⟨rfl, rfl⟩
    · rw [if_neg (by simpa using he)]
      have hpos : 0 < win.length := by
        rcases Nat.eq_zero_or_pos win.length with h0 | h0
        · rw [← hw, h0] at he; simp at he
        · exact h0
      rw [tblGet_pure hpos, pure_bind, dstSet_ok (by omega), pure_bind]
      constructor
      · refine readByte_safe.bind (fun c => ?_) (fun a => ⟨dst.set i win[0], by rw [if_neg (by simp)]⟩)
        rw [if_pos rfl]
        exact (ih (i + 1) _ _ (by simp; omega) (by rw [List.length_set]; omega)).1
      · refine Post.bind (fun r => Post.ite (fun _ => ?_) (fun _ => Post.false))
        refine (ih (i + 1) _ _ (by simp; omega) (by rw [List.length_set]; omega)).2.mono (fun d h => ?_)
        rw [List.length_set, List.drop_set, if_pos (by omega)] at h
        rw [show i + (k + 1) + 1 = i + 1 + k + 1 by omega]
        exact h

/-- With one byte more than the other decoders need, the decoder is safe. -/
theorem acnDecStrAsciiNullTerminatedMult_safe {max : Nat} {nul dst : List Byte} (h : max + 2 ≤ dst.length) :
    Safe (acnDecStrAsciiNullTerminatedMult max nul dst) ∧
    Post (acnDecStrAsciiNullTerminatedMult max nul dst) (Within1 (max + 1) dst) := by
  unfold acnDecStrAsciiNullTerminatedMult
  have hsz : (if nul.length < 10 then nul.length else 10) ≤ nul.length := by split <;> omega
  generalize (if nul.length < 10 then nul.length else 10) = sz at *
  dsimp only
  rw [dstZero_ok (by omega), pure_bind]
  have hl := zeroed_length (max := max) (dst := dst) (by omega)
  constructor
  · refine (windowFill_safe sz).bindP (windowFill_post sz) (fun a ha => ?_)
      (fun a => ⟨List.replicate (max + 1) 0#8 ++ dst.drop (max + 1), by rw [if_neg (by simp)]⟩)
    rw [if_pos rfl]
    exact (decAsciiMultLoop_safe nul sz hsz (max + 1) 0 a _ ha (by rw [hl]; omega)).1
  · refine Post.bind' (windowFill_post sz) (fun a ha => ?_) (fun a => by rw [if_neg (by simp)]; exact Post.false)
    rw [if_pos rfl]
    refine (decAsciiMultLoop_safe nul sz hsz (max + 1) 0 a _ ha (by rw [hl]; omega)).2.mono (fun d hd => ?_)
    rw [hl] at hd
    refine ⟨hd.1, (drop_mono hd.2 (by omega)).trans ?_⟩
    exact drop_mono zeroed_drop (by omega)

/-! character index -/

theorem idxOf_get {set : List Byte} {c : Byte} (h : c ∈ set) : set[set.idxOf c]? = some c := by
  have hlt : set.idxOf c < set.length := List.idxOf_lt_length_iff.2 h
  rw [List.getElem?_eq_getElem hlt, List.getElem_idxOf]

theorem decIndexLoop_reads (set l : List Byte) (hs : set.length < 2 ^ 31) (hw : Within set l) : ∀ i (dst : List Byte), i + l.length ≤ dst.length →
    Reads (decIndexLoop set set.length l.length i dst) (true, putAt dst l i) (indexCode set l) ∧
    Short (decIndexLoop set set.length l.length i dst) (indexCode set l) := by
  induction l with
  | nil => intro i dst _; rw [putAt_nil]; exact ⟨Reads.pure _, Short.nil _⟩
  | cons c t ih =>
    intro i dst h
    simp only [List.length_cons] at h
    have hc : c ∈ set := hw c (by simp)
    have hlt : set.idxOf c < set.length := List.idxOf_lt_length_iff.2 hc
    obtain ⟨r, s⟩ := ih (fun x hx => hw x (by simp [hx])) (i + 1) (dst.set i c) (by rw [List.length_set]; omega)
    rw [putAt_cons (by omega)] at r
    obtain ⟨r1, s1⟩ := decodeConstraintWholeNumber_reads (v := (set.idxOf c : Int)) (lo := 0) (hi := (set.length : Int) - 1) (by omega) (by omega)
      (by omega) (by omega) (by omega)
    simp only [List.length_cons, decIndexLoop]
    rw [indexCode_cons]
    constructor
    · refine r1.bind ?_
      rw [if_pos rfl]; dsimp only
      rw [if_neg (by omega), Int.toNat_natCast, tblGet_ok (idxOf_get hc), pure_bind, dstSet_ok (by omega), pure_bind]; exact r
    · refine s1.bind r1 ?_ (fun a => ⟨dst, by rw [if_neg (by simp)]⟩)
      rw [if_pos rfl]; dsimp only
      rw [if_neg (by omega), Int.toNat_natCast, tblGet_ok (idxOf_get hc), pure_bind, dstSet_ok (by omega), pure_bind]; exact s

theorem decIndexLoop_safe (set : List Byte) (hs : set.length < 2 ^ 31) (h1 : 1 ≤ set.length) (k : Nat) : ∀ i (dst : List Byte), i + k ≤ dst.length →
    Safe (decIndexLoop set set.length k i dst) ∧
    Post (decIndexLoop set set.length k i dst) (fun d => d.length = dst.length ∧ d.drop (i + k) = dst.drop (i + k)) := by
  induction k with
  | zero => intro i dst _; exact ⟨Safe.pure _ _, Post.pure (fun _ => ⟨rfl, rfl⟩)⟩
  | succ k ih =>
    intro i dst h
    simp only [decIndexLoop]
    constructor
    · refine (decodeConstraintWholeNumber_safe (lo := 0) (hi := (set.length : Int) - 1) (by omega) (by omega) (by omega) (by omega)).bind
        (fun c => ?_) (fun a => ⟨dst, by rw [if_neg (by simp)]⟩)
      rw [if_pos rfl]; dsimp only
      refine Safe.ite (fun _ => Safe.pure _ _) (fun hc => ?_)
      rw [tblGet_pure (by omega), pure_bind, dstSet_ok (by omega), pure_bind]
      exact (ih (i + 1) _ (by rw [List.length_set]; omega)).1
    · refine Post.bind (fun r => Post.ite (fun _ => Post.ite (fun _ => Post.false) (fun hc => ?_)) (fun _ => Post.false))
      rw [tblGet_pure (by omega), pure_bind, dstSet_ok (by omega), pure_bind]
      refine (ih (i + 1) _ (by rw [List.length_set]; omega)).2.mono (fun d hd => ?_)
      rw [List.length_set, List.drop_set, if_pos (by omega)] at hd
      rw [show i + (k + 1) = i + 1 + k by omega]
      exact hd

theorem acnDecStrIndexPrivate_reads {max : Nat} {set dst str : List Byte} (hs : set.length < 2 ^ 31) (h : max + 1 ≤ dst.length)
    (hm : str.length ≤ max) (hw : Within set str) :
    Reads (acnDecStrIndexPrivate max str.length set set.length dst) (true, filled max str dst) (indexCode set str) ∧
    Short (acnDecStrIndexPrivate max str.length set set.length dst) (indexCode set str) := by
  unfold acnDecStrIndexPrivate
  rw [dstZero_ok h, pure_bind, Int.toNat_natCast]
  have := decIndexLoop_reads set str hs hw 0 (List.replicate (max + 1) 0#8 ++ dst.drop (max + 1)) (by simp; omega)
  rwa [putAt_zero (by omega)] at this

theorem acnDecStrIndexPrivate_safe {max : Nat} {n : Int} {set dst : List Byte} (hs : set.length < 2 ^ 31) (h1 : 1 ≤ set.length)
    (h : max + 1 ≤ dst.length) (hn : n ≤ max) :
    Safe (acnDecStrIndexPrivate max n set set.length dst) ∧ Post (acnDecStrIndexPrivate max n set set.length dst) (Within1 max dst) := by
  unfold acnDecStrIndexPrivate
  rw [dstZero_ok h, pure_bind]
  have := decIndexLoop_safe set hs h1 n.toNat 0 (List.replicate (max + 1) 0#8 ++ dst.drop (max + 1)) (by rw [zeroed_length h]; omega)
  refine ⟨this.1, this.2.mono (fun d hd => ?_)⟩
  rw [zeroed_length h] at hd
  exact ⟨hd.1, (drop_mono hd.2 (by omega)).trans zeroed_drop⟩

/-! determinants -/

theorem clip_le (n : Int) (max : Nat) : clip n max ≤ max := by unfold clip; split <;> omega
theorem clip_eq {n : Int} {max : Nat} (h : n ≤ max) : clip n max = n := by rw [clip, if_pos h]

/-- Length determinant followed by the characters. -/
theorem internal_appends {min max : Nat} {obj str : List Byte} {w : List Bool} {f : M Unit} (h : HoldsString obj str)
    (hmin : min ≤ str.length) (hm : str.length ≤ max) (h63 : max < 2 ^ 63) (hf : Appends f () w) :
    Appends (do
      let n ← strLen obj
      encodeConstraintWholeNumber (if n ≤ max then n else max) min max
      f) () (constrainedCode min max str.length ++ w) := by
  rw [strLen_eq h, pure_bind, if_pos hm]
  exact (encodeConstraintWholeNumber_appends (v := str.length) (lo := min) (hi := max) (by omega) (by omega) (by omega)).bind
    (g := fun _ => f) hf

theorem internal_reads {min max : Nat} {str dst : List Byte} {w : List Bool} {g : Int → M (Bool × List Byte)} {d : List Byte}
    (hmin : min ≤ str.length) (hm : str.length ≤ max) (h63 : max < 2 ^ 63)
    (hg : Reads (g str.length) (true, d) w ∧ Short (g str.length) w) :
    Reads (do
      let n ← decodeConstraintWholeNumber min max
      if n.1 then g (clip n.2 max) else pure (false, dst)) (true, d) (constrainedCode min max str.length ++ w) ∧
    Short (do
      let n ← decodeConstraintWholeNumber min max
      if n.1 then g (clip n.2 max) else pure (false, dst)) (constrainedCode min max str.length ++ w) := by
  obtain ⟨r1, s1⟩ := decodeConstraintWholeNumber_reads (v := str.length) (lo := min) (hi := max) (by omega) (by omega) (by omega) (by omega) (by omega)
  constructor
  · refine r1.bind ?_
    rw [if_pos rfl]; dsimp only; rw [clip_eq (by omega)]; exact hg.1
  · refine s1.bind r1 ?_ (fun a => ⟨dst, by rw [if_neg (by simp)]⟩)
    rw [if_pos rfl]; dsimp only; rw [clip_eq (by omega)]; exact hg.2

theorem internal_safe {min max : Nat} {dst : List Byte} {g : Int → M (Bool × List Byte)} (hmm : min ≤ max) (h63 : max < 2 ^ 63)
    (hg : ∀ n : Int, n ≤ max → Safe (g n) ∧ Post (g n) (Within1 max dst)) :
    Safe (do
      let n ← decodeConstraintWholeNumber min max
      if n.1 then g (clip n.2 max) else pure (false, dst)) ∧
    Post (do
      let n ← decodeConstraintWholeNumber min max
      if n.1 then g (clip n.2 max) else pure (false, dst)) (Within1 max dst) := by
  constructor
  · refine (decodeConstraintWholeNumber_safe (lo := min) (hi := max) (by omega) (by omega) (by omega) (by omega)).bind
      (fun c => ?_) (fun a => ⟨dst, by rw [if_neg (by simp)]⟩)
    rw [if_pos rfl]
    exact (hg _ (clip_le _ _)).1
  · exact Post.bind (fun r => Post.ite (fun _ => (hg _ (clip_le _ _)).2) (fun _ => Post.false))

theorem ia5_length : ia5Set.length = 128 := by simp [ia5Set]

theorem ia5_within {str : List Byte} (h : ∀ c ∈ str, c.toNat < 128) : Within ia5Set str := by
  intro c hc
  simp only [ia5Set, List.mem_map, List.mem_range]
  exact ⟨c.toNat, h c hc, by simp⟩

theorem ia5_idx {c : Byte} (h : c.toNat < 128) : ia5Set.idxOf c = c.toNat := by
  have : ∀ c : Byte, c.toNat < 128 → ia5Set.idxOf c = c.toNat := by decide +kernel
  exact this c h

end Asn1
