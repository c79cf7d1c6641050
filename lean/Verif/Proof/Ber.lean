import Verif.Spec.Ber
import Verif.Proof.AcnInt2
import Verif.Proof.AcnInt3
/-!
# Lemmas about BER
-/
namespace Asn1

instance : LawfulMonad BM := LawfulMonad.mk' BM
  (id_map := by
    intro α x; funext s
    show (match x s with | .ok (.ok a, s') => _ | .ok (.error e, s') => _ | .ub => _ | .abort => _) = x s
    rcases x s with ⟨⟨_⟩ | ⟨_⟩, _⟩ | _ | _ <;> rfl)
  (pure_bind := by intros; rfl)
  (bind_assoc := by
    intro α β γ x f g; funext s
    show (match (match x s with | .ok (.ok a, s') => f a s' | .ok (.error e, s') => .ok (.error e, s') | .ub => .ub | .abort => .abort) with
      | .ok (.ok a, s') => _ | .ok (.error e, s') => _ | .ub => _ | .abort => _) = 
      (match x s with | .ok (.ok a, s') => (f a >>= g) s' | .ok (.error e, s') => .ok (.error e, s') | .ub => .ub | .abort => .abort)
    rcases x s with ⟨⟨_⟩ | ⟨_⟩, _⟩ | _ | _ <;> rfl)

theorem bm_bind_ok {α β : Type} {x : BM α} {f : α → BM β} {s s' : ByteStream} {a : α} (h : x s = .ok (.ok a, s')) :
    (x >>= f) s = f a s' := by
  show (match x s with | .ok (.ok a, s') => f a s' | .ok (.error e, s') => .ok (.error e, s') | .ub => .ub | .abort => .abort) = _
  rw [h]

theorem bm_bind_err {α β : Type} {x : BM α} {f : α → BM β} {s s' : ByteStream} {e : BerErr} (h : x s = .ok (.error e, s')) :
    (x >>= f) s = .ok (.error e, s') := by
  show (match x s with | .ok (.ok a, s') => f a s' | .ok (.error e, s') => .ok (.error e, s') | .ub => .ub | .abort => .abort) = _
  rw [h]

theorem bm_bind_ub {α β : Type} {x : BM α} {f : α → BM β} {s : ByteStream} (h : x s = .ub) : (x >>= f) s = .ub := by
  show (match x s with | .ok (.ok a, s') => f a s' | .ok (.error e, s') => .ok (.error e, s') | .ub => .ub | .abort => .abort) = _
  rw [h]

/-! ## Writing -/

/-- `f` writes the octets `l` if they fit into the object and into the stream with its one additional octet. -/
def BPuts (f : BM Unit) (l : List Byte) : Prop :=
  ∀ s : ByteStream, s.currentByte + l.length ≤ s.count + 1 → s.currentByte + l.length ≤ s.buf.length →
    f s = .ok (.ok (), ⟨s.buf.take s.currentByte ++ l ++ s.buf.drop (s.currentByte + l.length), s.count, s.currentByte + l.length⟩)

/-- `f` reports an error if they do not. -/
def BFull (f : BM Unit) (l : List Byte) : Prop :=
  ∀ s : ByteStream, s.count < s.buf.length → s.currentByte ≤ s.count + 1 → s.count + 1 < s.currentByte + l.length →
    ∃ s', f s = .ok (.error .insufficient, s') ∧ s'.count = s.count ∧ s'.buf.length = s.buf.length ∧
      s'.buf.drop (s.count + 1) = s.buf.drop (s.count + 1)

def BWr (f : BM Unit) (l : List Byte) : Prop := BPuts f l ∧ BFull f l

theorem BWr.pure : BWr (pure ()) [] := by
  constructor
  · intro s h1 h2
    have e : s.buf.take s.currentByte ++ [] ++ s.buf.drop (s.currentByte + 0) = s.buf := by simp
    show Res.ok (Except.ok (), s) = _
    simp only [List.length_nil]
    rw [e]; rfl
  · intro s _ h1 h2
    simp only [List.length_nil] at h2; omega

theorem BWr.putByte (b : Byte) : BWr (berPutByte b) [b] := by
  constructor
  · intro s h1 h2
    simp only [List.length_cons, List.length_nil] at h1 h2
    unfold Asn1.berPutByte
    rw [if_neg (by omega), if_pos (by omega)]
    congr 3
    rw [List.set_eq_take_append_cons_drop, if_pos (by omega)]
    simp
  · intro s _ h1 h2
    simp only [List.length_cons, List.length_nil] at h2
    refine ⟨s, ?_, rfl, rfl, rfl⟩
    unfold Asn1.berPutByte
    rw [if_pos (by omega)]

theorem BWr.bind {f g : BM Unit} {l m : List Byte} (hf : BWr f l) (hg : BWr g m) : BWr (f >>= fun _ => g) (l ++ m) := by
  constructor
  · intro s h1 h2
    rw [List.length_append] at h1 h2
    rw [bm_bind_ok (hf.1 s (by omega) (by omega)), hg.1 _ (by dsimp only; omega) (by dsimp only; simp; omega)]
    dsimp only
    congr 3
    · have hl : (s.buf.take s.currentByte ++ l).length = s.currentByte + l.length := by
        rw [List.length_append, List.length_take]; omega
      rw [List.take_append_of_le_length (by omega), List.take_of_length_le (by omega), List.drop_append, hl,
        List.drop_of_length_le (by rw [hl]; omega), List.nil_append, List.drop_drop, List.length_append]
      congr 1
      · simp
      · congr 1; omega
    · rw [List.length_append]; omega
  · intro s h0 h1 h2
    rw [List.length_append] at h2
    by_cases h : s.count + 1 < s.currentByte + l.length
    · obtain ⟨s', e, h3⟩ := hf.2 s h0 h1 h
      exact ⟨s', bm_bind_err e, h3⟩
    · have e := hf.1 s (by omega) (by omega)
      have hl : (s.buf.take s.currentByte ++ l).length = s.currentByte + l.length := by
        rw [List.length_append, List.length_take]; omega
      have hbl : (s.buf.take s.currentByte ++ l ++ s.buf.drop (s.currentByte + l.length)).length = s.buf.length := by
        rw [List.length_append, hl, List.length_drop]; omega
      obtain ⟨s', e', h3, h4, h5⟩ := hg.2 ⟨s.buf.take s.currentByte ++ l ++ s.buf.drop (s.currentByte + l.length), s.count, s.currentByte + l.length⟩
        (by dsimp only; rw [hbl]; exact h0) (by dsimp only; omega) (by dsimp only; omega)
      refine ⟨s', by rw [bm_bind_ok e]; exact e', h3, by rw [h4]; exact hbl, ?_⟩
      rw [h5]
      dsimp only
      rw [List.drop_append, hl, List.drop_of_length_le (by rw [hl]; omega), List.nil_append, List.drop_drop]
      congr 1; omega

theorem BWr.congr {f g : BM Unit} {l : List Byte} (h : BWr f l) (e : f = g) : BWr g l := e ▸ h

/-! ## Reading -/

/-- `f` reads the octets `l` and returns `a`. -/
def BGets {α : Type} (f : BM α) (a : α) (l : List Byte) : Prop :=
  ∀ s : ByteStream, s.currentByte + l.length ≤ s.count + 1 → s.currentByte + l.length ≤ s.buf.length →
    (s.buf.drop s.currentByte).take l.length = l → f s = .ok (.ok a, { s with currentByte := s.currentByte + l.length })

/-- `f` reports an error if the stream ends before them. -/
def BShort {α : Type} (f : BM α) (l : List Byte) : Prop :=
  ∀ s : ByteStream, s.count < s.buf.length → s.currentByte ≤ s.count + 1 → s.count + 1 < s.currentByte + l.length →
    (s.buf.drop s.currentByte).take (s.count + 1 - s.currentByte) = l.take (s.count + 1 - s.currentByte) →
    ∃ p, f s = .ok (.error .insufficient, { s with currentByte := p })

def BRd {α : Type} (f : BM α) (a : α) (l : List Byte) : Prop := BGets f a l ∧ BShort f l

theorem BRd.pure {α : Type} (a : α) : BRd (pure a) a [] := by
  constructor
  · intro s _ _ _; rfl
  · intro s _ h1 h2
    simp only [List.length_nil] at h2; omega

theorem berGetByte_ok {s : ByteStream} {b : Byte} (h : s.currentByte ≤ s.count) (hb : s.buf[s.currentByte]? = some b) :
    berGetByte s = .ok (.ok b, { s with currentByte := s.currentByte + 1 }) := by
  unfold berGetByte
  rw [if_neg (by omega), hb]

theorem BRd.getByte (b : Byte) : BRd berGetByte b [b] := by
  constructor
  · intro s h1 h2 h3
    simp only [List.length_cons, List.length_nil] at h1 h2 h3
    refine berGetByte_ok (by omega) ?_
    have := congrArg (fun l : List Byte => l[0]?) h3
    simpa [List.getElem?_take] using this
  · intro s _ h1 h2 _
    simp only [List.length_cons, List.length_nil] at h2
    refine ⟨s.currentByte, ?_⟩
    unfold Asn1.berGetByte
    rw [if_pos (by omega)]

theorem BRd.bind {α β : Type} {f : BM α} {g : α → BM β} {a : α} {b : β} {l m : List Byte} (hf : BRd f a l) (hg : BRd (g a) b m) :
    BRd (f >>= g) b (l ++ m) := by
  constructor
  · intro s h1 h2 h3
    rw [List.length_append] at h1 h2 h3
    have e1 : (s.buf.drop s.currentByte).take l.length = l := by
      have := congrArg (List.take l.length) h3
      rwa [List.take_take, Nat.min_eq_left (by omega), List.take_left] at this
    have e2 : (s.buf.drop (s.currentByte + l.length)).take m.length = m := by
      have := congrArg (List.drop l.length) h3
      rwa [List.drop_take, List.drop_drop, List.drop_left, Nat.add_sub_cancel_left] at this
    rw [bm_bind_ok (hf.1 s (by omega) (by omega) e1), hg.1 _ (by dsimp only; omega) (by dsimp only; omega) (by dsimp only; exact e2),
      List.length_append, Nat.add_assoc]
  · intro s h0 h1 h2 h3
    rw [List.length_append] at h2
    by_cases h : s.count + 1 < s.currentByte + l.length
    · rw [List.take_append_of_le_length (by omega)] at h3
      obtain ⟨p, e⟩ := hf.2 s h0 h1 h h3
      exact ⟨p, bm_bind_err e⟩
    · have e1 : (s.buf.drop s.currentByte).take l.length = l := by
        have := congrArg (List.take l.length) h3
        rwa [List.take_take, Nat.min_eq_left (by omega), List.take_take, Nat.min_eq_left (by omega), List.take_left] at this
      have e2 : (s.buf.drop (s.currentByte + l.length)).take (s.count + 1 - (s.currentByte + l.length)) =
          m.take (s.count + 1 - (s.currentByte + l.length)) := by
        have := congrArg (List.drop l.length) h3
        rw [List.drop_take, List.drop_drop, List.drop_take, List.drop_left, Nat.sub_sub] at this
        exact this
      obtain ⟨p, e⟩ := hg.2 { s with currentByte := s.currentByte + l.length } h0 (by dsimp only; omega) (by dsimp only; omega) e2
      exact ⟨p, by rw [bm_bind_ok (hf.1 s (by omega) (by omega) e1)]; exact e⟩

theorem BRd.map {α β : Type} {f : BM α} {a : α} {l : List Byte} (hf : BRd f a l) (g : α → β) :
    BRd (f >>= fun x => Pure.pure (g x)) (g a) l := by
  have := hf.bind (g := fun x => (Pure.pure (g x) : BM β)) (BRd.pure (g a))
  rwa [List.append_nil] at this

theorem berRoundTrip_of {α : Type} {enc : BM Unit} {octets : List Byte} {dec : BM α} {v : α} (hw : BWr enc octets)
    (hr : BRd dec v octets) : BerRoundTrip enc octets dec v := by
  intro s h1 h2
  refine ⟨_, hw.1 s (by omega) (by omega), rfl, rfl, rfl, ?_⟩
  intro t ht hp hc hb
  dsimp only at hc hb ⊢
  have hl : (s.buf.take s.currentByte).length = s.currentByte := by rw [List.length_take]; omega
  rw [hr.1 t (by omega) (by omega) ?_, hp]
  apply List.ext_getElem?
  intro i
  rw [List.getElem?_take, List.getElem?_drop]
  by_cases hi : i < octets.length
  · rw [if_pos hi, hp, hb _ (by omega) (by omega), List.append_assoc, List.getElem?_append_right (by omega), hl,
      Nat.add_sub_cancel_left, List.getElem?_append_left hi]
  · rw [if_neg hi, List.getElem?_eq_none (by omega)]

/-! ## Octets of numbers -/

theorem beOctets_length (k n : Nat) : (beOctets k n).length = k := by
  induction k with
  | zero => rfl
  | succ k ih => rw [beOctets, List.length_cons, ih]

theorem foldl_octets (l : List Byte) (acc : Nat) :
    l.foldl (fun a b => 256 * a + b.toNat) acc = acc * 256 ^ l.length + octetsVal l := by
  unfold octetsVal
  induction l generalizing acc with
  | nil => simp
  | cons b l ih =>
    rw [List.foldl_cons, ih, List.foldl_cons, ih (256 * 0 + b.toNat), List.length_cons, Nat.pow_succ, Nat.mul_zero, Nat.zero_add]
    rw [Nat.add_mul, ← Nat.add_assoc]
    congr 2
    rw [Nat.mul_comm 256 acc, Nat.mul_assoc, Nat.mul_comm 256]

theorem octetsVal_cons (b : Byte) (l : List Byte) : octetsVal (b :: l) = b.toNat * 256 ^ l.length + octetsVal l := by
  have := foldl_octets l (256 * 0 + b.toNat)
  rw [Nat.mul_zero, Nat.zero_add] at this
  rw [← this]
  unfold octetsVal
  rw [List.foldl_cons, Nat.mul_zero, Nat.zero_add]

theorem octetsVal_lt (l : List Byte) : octetsVal l < 256 ^ l.length := by
  induction l with
  | nil => decide
  | cons b l ih =>
    rw [octetsVal_cons, List.length_cons, Nat.pow_succ]
    have hb : b.toNat < 256 := b.isLt
    have : (b.toNat + 1) * 256 ^ l.length ≤ 256 * 256 ^ l.length := Nat.mul_le_mul_right _ hb
    rw [Nat.add_mul] at this
    omega

theorem octetsVal_beOctets (k n : Nat) : octetsVal (beOctets k n) = n % 256 ^ k := by
  induction k with
  | zero => simp [beOctets, octetsVal, Nat.mod_one]
  | succ k ih =>
    have e : 256 ^ (k + 1) = 256 ^ k * 256 := Nat.pow_succ ..
    rw [beOctets, octetsVal_cons, ih, beOctets_length, BitVec.toNat_ofNat, e, Nat.mod_mul (a := 256 ^ k)]
    rw [Nat.mul_comm, Nat.add_comm]

theorem pow256 (k : Nat) : 256 ^ k = 2 ^ (8 * k) := by rw [Nat.pow_mul]

theorem natOctets_val (n : Nat) : octetsVal (natOctets n) = n := by
  rw [natOctets, octetsVal_beOctets, pow256]
  exact Nat.mod_eq_of_lt ((octetsNat_le_iff n _ (octetsNat_pos n)).1 (Nat.le_refl _))

theorem natOctets_length (n : Nat) : (natOctets n).length = octetsNat n := beOctets_length _ _

/-- The accumulation loop of the decoders. -/
def berFold {w : Nat} (l : List Byte) (acc : BitVec w) : BitVec w := l.foldl (fun a b => a <<< 8 ||| b.setWidth w) acc

theorem shl8_or {w : Nat} (a : BitVec w) (b : Byte) (hw : 8 ≤ w) :
    (a <<< 8 ||| b.setWidth w).toNat = (256 * a.toNat + b.toNat) % 2 ^ w := by
  have hb : b.toNat < 2 ^ 8 := b.isLt
  have h256 : 2 ^ w = 2 ^ 8 * 2 ^ (w - 8) := by rw [← Nat.pow_add]; congr 1; omega
  have hp : 0 < 2 ^ (w - 8) := Nat.two_pow_pos _
  have hbw : b.toNat < 2 ^ w := Nat.lt_of_lt_of_le hb (Nat.pow_le_pow_right (by omega) hw)
  rw [BitVec.toNat_or, BitVec.toNat_shiftLeft, BitVec.toNat_setWidth, Nat.mod_eq_of_lt hbw, Nat.shiftLeft_eq]
  have e1 : a.toNat * 2 ^ 8 % 2 ^ w = 2 ^ 8 * (a.toNat % 2 ^ (w - 8)) := by
    rw [h256, Nat.mul_comm, Nat.mul_mod_mul_left]
  rw [e1, ← Nat.two_pow_add_eq_or_of_lt hb]
  have e2 : 256 * a.toNat = 2 ^ 8 * a.toNat := rfl
  rw [e2, h256]
  rw [Nat.mod_mul, Nat.mul_add_mod, Nat.mod_eq_of_lt hb, Nat.mul_add_div (by omega), Nat.div_eq_of_lt hb, Nat.add_zero, Nat.add_comm]

theorem berFold_toNat {w : Nat} (hw : 8 ≤ w) (l : List Byte) (acc : BitVec w) :
    (berFold l acc).toNat = (acc.toNat * 256 ^ l.length + octetsVal l) % 2 ^ w := by
  induction l generalizing acc with
  | nil => simp [berFold, octetsVal, Nat.mod_eq_of_lt acc.isLt]
  | cons b l ih =>
    have : berFold (b :: l) acc = berFold l (acc <<< 8 ||| b.setWidth w) := rfl
    rw [this, ih, shl8_or acc b hw, octetsVal_cons, List.length_cons, Nat.pow_succ, ← Nat.add_assoc]
    rw [Nat.add_mod, Nat.mod_mul_mod, ← Nat.add_mod, Nat.add_mul]
    congr 3
    rw [Nat.mul_comm 256 acc.toNat, Nat.mul_assoc, Nat.mul_comm 256]

theorem berReadBytes_rd (l : List Byte) (acc : U64) : BRd (berReadBytes l.length acc) (berFold l acc) l := by
  induction l generalizing acc with
  | nil => exact BRd.pure acc
  | cons b l ih => exact (BRd.getByte b).bind (g := fun c => berReadBytes l.length (acc <<< 8 ||| c.setWidth 64)) (ih _)

theorem berReadLength_rd (l : List Byte) (acc : U32) : BRd (berReadLength l.length acc) (berFold l acc) l := by
  induction l generalizing acc with
  | nil => exact BRd.pure acc
  | cons b l ih => exact (BRd.getByte b).bind (g := fun c => berReadLength l.length (acc <<< 8 ||| c.setWidth 32)) (ih _)

theorem berOctet_eq (v : U64) {i : Nat} (hi : i < 8) : berOctet v i = pure (BitVec.ofNat 8 (v.toNat / 256 ^ i)) := by
  have hm : ∀ i, i < 8 → ∃ m : U64, berAux[i]? = some m ∧ ∀ j, j < 8 → m.getLsbD (8 * i + j) = true := by
    intro i hi
    have : i = 0 ∨ i = 1 ∨ i = 2 ∨ i = 3 ∨ i = 4 ∨ i = 5 ∨ i = 6 ∨ i = 7 := by omega
    rcases this with h | h | h | h | h | h | h | h <;> subst h <;> exact ⟨_, rfl, by decide⟩
  obtain ⟨m, e, hb⟩ := hm i hi
  unfold berOctet bTbl
  rw [e]
  show (pure _ : BM Byte) = _
  congr 1
  apply BitVec.eq_of_getLsbD_eq
  intro j hj
  rw [BitVec.getLsbD_setWidth, BitVec.getLsbD_ushiftRight, BitVec.getLsbD_and, hb j hj, BitVec.getLsbD_ofNat, pow256]
  simp only [hj, decide_true, Bool.true_and, Bool.and_true]
  rw [Nat.testBit_div_two_pow, Nat.add_comm j]
  rfl

theorem berEncodeUInt2_wr (v : U64) (k : Nat) (hk : k ≤ 8) : BWr (berEncodeUInt2 v k) (beOctets k v.toNat) := by
  induction k with
  | zero => exact BWr.pure
  | succ k ih =>
    rw [berEncodeUInt2, berOctet_eq v (by omega), pure_bind]
    exact (BWr.putByte _).bind (ih (by omega))

theorem berEncodeUIntLoop_true (v : U64) (k : Nat) : berEncodeUIntLoop v k true = berEncodeUInt2 v k := by
  induction k with
  | zero => rfl
  | succ k ih =>
    rw [berEncodeUIntLoop, berEncodeUInt2]
    simp only [Bool.true_or, if_true, ih]

theorem berEncodeUIntLoop_wr (v : U64) (k : Nat) (hk : k ≤ 8) (h0 : v ≠ 0#64) (hv : v.toNat < 256 ^ k) :
    BWr (berEncodeUIntLoop v k false) (natOctets v.toNat) := by
  have hpos : 0 < v.toNat := by
    rcases Nat.eq_zero_or_pos v.toNat with h | h
    · exact absurd (BitVec.eq_of_toNat_eq h) h0
    · exact h
  induction k with
  | zero => rw [Nat.pow_zero] at hv; omega
  | succ k ih =>
    rw [berEncodeUIntLoop, berOctet_eq v (by omega), pure_bind]
    have hlt : v.toNat / 256 ^ k < 256 := by
      rw [Nat.div_lt_iff_lt_mul (Nat.pow_pos (by omega)), Nat.mul_comm, ← Nat.pow_succ]; exact hv
    by_cases h : v.toNat < 256 ^ k
    · have e : v.toNat / 256 ^ k = 0 := Nat.div_eq_of_lt h
      rw [e]
      simp only [bne_self_eq_false, Bool.or_self, Bool.false_eq_true, if_false, pure_bind]
      exact ih (by omega) h
    · have hd : 0 < v.toNat / 256 ^ k := Nat.div_pos (by omega) (Nat.pow_pos (by omega))
      have hne : (BitVec.ofNat 8 (v.toNat / 256 ^ k) != 0#8) = true := by
        rw [bne_iff_ne]
        intro hc
        have := congrArg BitVec.toNat hc
        rw [BitVec.toNat_ofNat, Nat.mod_eq_of_lt (by omega)] at this
        simp at this; omega
      simp only [hne, Bool.or_true, if_true]
      rw [berEncodeUIntLoop_true]
      have ho : octetsNat v.toNat = k + 1 := octetsNat_eq (by rw [← pow256]; exact hv) (.inr (by rw [← pow256]; omega))
      rw [natOctets, ho]
      exact (BWr.putByte _).bind (berEncodeUInt2_wr v k (by omega))

theorem berEncodeUInt_wr (v : U64) : BWr (berEncodeUInt v) (natOctets v.toNat) := by
  unfold berEncodeUInt
  split
  · rename_i h
    rw [h]
    exact BWr.putByte 0#8
  · rename_i h
    exact berEncodeUIntLoop_wr v 8 (by omega) h v.isLt

/-! ## Tags -/

theorem octetCountLoop_eq {w : Nat} (v : BitVec w) (k : Nat) (h0 : 0 < v.toNat) (hv : v.toNat < 256 ^ k) :
    octetCountLoop k v = octetsNat v.toNat := by
  induction k generalizing v with
  | zero => rw [Nat.pow_zero] at hv; omega
  | succ k ih =>
    have hgt : v > 0#w := by show (0#w).toNat < v.toNat; simpa using h0
    have hs : (v >>> 8).toNat = v.toNat / 256 := by rw [BitVec.toNat_ushiftRight, Nat.shiftRight_eq_div_pow]
    rw [octetCountLoop, if_pos hgt]
    by_cases h : v.toNat < 256
    · have : octetCountLoop k (v >>> 8) = 0 := by
        cases k with
        | zero => rfl
        | succ k =>
          rw [octetCountLoop, if_neg]
          show ¬ (0#w).toNat < (v >>> 8).toNat
          rw [hs, Nat.div_eq_of_lt h]; simp
      rw [this]
      exact (octetsNat_eq (k := 0) (by simpa using h) (.inl rfl)).symm
    · have h1 : 0 < (v >>> 8).toNat := by rw [hs]; exact Nat.div_pos (by omega) (by omega)
      have h2 : (v >>> 8).toNat < 256 ^ k := by rw [hs]; rw [Nat.pow_succ] at hv; omega
      rw [ih _ h1 h2, hs]
      have hp := octetsNat_pos (v.toNat / 256)
      have a := (octetsNat_le_iff (v.toNat / 256) _ hp).1 (Nat.le_refl _)
      have b : ¬ octetsNat (v.toNat / 256) ≤ octetsNat (v.toNat / 256) - 1 := by omega
      have e8 : (2 : Nat) ^ (8 * (octetsNat (v.toNat / 256) + 1)) = 2 ^ (8 * octetsNat (v.toNat / 256)) * 256 := by
        rw [Nat.mul_add, Nat.pow_add]
      rw [Nat.add_comm]
      refine (octetsNat_eq ?_ (.inr ?_)).symm
      · rw [e8]; omega
      · by_cases hk : octetsNat (v.toNat / 256) = 1
        · rw [hk]; simp; omega
        · have c : ¬ v.toNat / 256 < 2 ^ (8 * (octetsNat (v.toNat / 256) - 1)) :=
            fun hc => b ((octetsNat_le_iff _ _ (by omega)).2 hc)
          have e9 : (2 : Nat) ^ (8 * octetsNat (v.toNat / 256)) = 2 ^ (8 * (octetsNat (v.toNat / 256) - 1)) * 256 := by
            have : 8 * octetsNat (v.toNat / 256) = 8 * (octetsNat (v.toNat / 256) - 1) + 8 := by omega
            rw [this, Nat.pow_add]
          rw [e9]; omega

theorem tagSize_eq (tag : U64) : (if tag = 0#64 then 1 else octetCountLoop 8 tag) = octetsNat tag.toNat := by
  split
  · rename_i h; rw [h]; rfl
  · rename_i h
    refine octetCountLoop_eq tag 8 ?_ tag.isLt
    rcases Nat.eq_zero_or_pos tag.toNat with h' | h'
    · exact absurd (BitVec.eq_of_toNat_eq h') h
    · exact h'

end Asn1
