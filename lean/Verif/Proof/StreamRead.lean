import Verif.Spec.StreamRead
import Verif.Proof.DecRules
/-! Reading in the streaming build: the primitives deliver what they deliver from one buffer. -/
namespace Asn1

theorem rbind_def {α β : Type} (x : RM α) (f : α → RM β) (s : RStream) :
    (x >>= f) s = match x s with
      | .ok (a, s') => f a s'
      | .ub => .ub
      | .abort => .abort := rfl

theorem rbind_ok {α β : Type} {x : RM α} {f : α → RM β} {s s' : RStream} {a : α} (h : x s = .ok (a, s')) :
    (x >>= f) s = f a s' := by rw [rbind_def, h]

theorem liftR_bind_ok {α β : Type} {f : M α} {g : α → RM β} {s : RStream} {a : α} {t : BitStream} (h : f s.st = .ok (a, t)) :
    (liftR f >>= g) s = g a { s with st := t } := rbind_ok (by unfold liftR; rw [h])

theorem liftR_getS_bind {β : Type} (f : BitStream → RM β) (s : RStream) : (liftR getS >>= f) s = f s.st s := rfl

theorem liftR_modS_bind {β : Type} (g : BitStream → BitStream) (f : Unit → RM β) (s : RStream) :
    (liftR (modS g) >>= f) s = f () { s with st := g s.st } := rfl

theorem liftR_incByte_bind {β : Type} (f : Unit → RM β) (s : RStream) :
    (liftR incByte >>= f) s = f () { s with st := { s.st with currentByte := s.st.currentByte + 1 } } := rfl

theorem rpure_run {α : Type} (a : α) (s : RStream) : (pure a : RM α) s = .ok (a, s) := rfl

/-- The stream stands before byte `B` of the message (`cur ≤ n`: possibly at the end of the buffer). -/
structure RMid (n : Nat) (msg : List Byte) (s : RStream) (B c : Nat) : Prop where
  count : s.st.count = n
  cap : n ≤ s.st.buf.length
  cur : s.st.currentByte ≤ n
  byte : B = c * n + s.st.currentByte
  buf : ∀ j, j < n → s.st.buf[j]? = some (msg.getD (c * n + j) 0#8)
  rest : s.rest = msg.drop ((c + 1) * n)

/-- … and not at the end of the buffer. -/
structure RSt (n : Nat) (msg : List Byte) (s : RStream) (B c : Nat) : Prop extends RMid n msg s B c where
  lt : s.st.currentByte < n

theorem RMid.setBit {n : Nat} {msg : List Byte} {s : RStream} {B c b : Nat} (h : RMid n msg s B c) :
    RMid n msg { s with st := { s.st with currentBit := b } } B c := ⟨h.count, h.cap, h.cur, h.byte, h.buf, h.rest⟩

theorem RSt.setBit {n : Nat} {msg : List Byte} {s : RStream} {B c b : Nat} (h : RSt n msg s B c) :
    RSt n msg { s with st := { s.st with currentBit := b } } B c := ⟨h.toRMid.setBit, h.lt⟩

theorem RSt.next {n : Nat} {msg : List Byte} {s : RStream} {B c k : Nat} (h : RSt n msg s B c) (hk : s.st.currentByte + k ≤ n) :
    RMid n msg { s with st := { s.st with currentByte := s.st.currentByte + k } } (B + k) c :=
  ⟨h.count, h.cap, hk, by have := h.byte; dsimp only; omega, h.buf, h.rest⟩

theorem RSt.mod {n : Nat} {msg : List Byte} {s : RStream} {B c : Nat} (h : RSt n msg s B c) : B % n = s.st.currentByte := by
  rw [h.byte, Nat.mul_comm, Nat.mul_add_mod, Nat.mod_eq_of_lt h.lt]

theorem RSt.get {n : Nat} {msg : List Byte} {s : RStream} {B c : Nat} (h : RSt n msg s B c) :
    bufGet s.st.currentByte s.st = .ok (msg.getD B 0#8, s.st) := by
  unfold bufGet
  rw [h.buf _ h.lt, ← h.byte]

theorem drop_take_getD (l : List Byte) (a n j : Nat) (h : j < n) :
    ((l.drop a).take n ++ List.replicate (n - (l.drop a).length) 0#8)[j]? = some (l.getD (a + j) 0#8) := by
  rw [List.getD_eq_getElem?_getD]
  by_cases hj : a + j < l.length
  · rw [List.getElem?_append_left (by rw [List.length_take, List.length_drop]; omega), List.getElem?_take_of_lt h,
      List.getElem?_drop, List.getElem?_eq_getElem hj]
    rfl
  · rw [List.getElem?_append_right (by rw [List.length_take, List.length_drop]; omega), List.length_take, List.length_drop,
      List.getElem?_replicate, if_pos (by omega), List.getElem?_eq_none (by omega)]
    rfl

/-- The hook. -/
theorem RMid.fetch {n : Nat} {msg : List Byte} {s : RStream} {B c : Nat} (hn : 0 < n) (h : RMid n msg s B c) :
    ∃ s' c', fetchIfRequired s = .ok ((), s') ∧ RSt n msg s' B c' ∧ s'.st.currentBit = s.st.currentBit := by
  obtain ⟨h1, h2, h3, h4, h5, h6⟩ := h
  unfold fetchIfRequired
  by_cases hc : s.st.currentByte = s.st.count
  · rw [if_pos hc, if_pos (by omega)]
    refine ⟨_, c + 1, rfl, ⟨⟨h1, ?_, Nat.zero_le _, ?_, ?_, ?_⟩, hn⟩, rfl⟩
    · dsimp only
      rw [List.length_append, List.length_append, List.length_take, List.length_replicate, List.length_drop]
      omega
    · dsimp only
      rw [Nat.add_mul]; omega
    · intro j hj
      dsimp only
      rw [h6, h1, List.getElem?_append_left (by
        rw [List.length_append, List.length_take, List.length_replicate]; omega)]
      exact drop_take_getD _ _ _ _ hj
    · dsimp only
      rw [h6, h1, List.drop_drop]
      congr 1
      rw [Nat.add_mul (c + 1)]; omega
  · rw [if_neg hc]
    exact ⟨s, c, rfl, ⟨⟨h1, h2, h3, h4, h5, h6⟩, by omega⟩, rfl⟩

/-- The whole message in one buffer. -/
structure TSt (msg : List Byte) (t : BitStream) : Prop where
  count : t.count = msg.length
  buf : ∀ j, j < msg.length → t.buf[j]? = some (msg.getD j 0#8)

theorem TSt.get {msg : List Byte} {t : BitStream} (h : TSt msg t) {j : Nat} (hj : j < msg.length) :
    bufGet j t = .ok (msg.getD j 0#8, t) := by
  unfold bufGet
  rw [h.buf _ hj]

/-- Both builds at the same place. -/
structure Sim (n : Nat) (msg : List Byte) (s : RStream) (t : BitStream) : Prop where
  ex : ∃ c, RSt n msg s t.currentByte c
  bit : s.st.currentBit = t.currentBit
  bitLt : t.currentBit < 8
  t : TSt msg t

theorem masks_some {b : Nat} (h : b < 8) : ∃ m, ∀ t : BitStream, tblGet masks b t = .ok (m, t) := by
  have : masks[b]? = some masks[b] := List.getElem?_eq_getElem h
  exact ⟨_, fun t => by unfold tblGet; rw [this]⟩

theorem masksb_some {b : Nat} (h : b < 9) : ∃ m, ∀ t : BitStream, tblGet masksb b t = .ok (m, t) := by
  have : masksb[b]? = some masksb[b] := List.getElem?_eq_getElem h
  exact ⟨_, fun t => by unfold tblGet; rw [this]⟩

theorem RSt.inBounds {n : Nat} {msg : List Byte} {s : RStream} {B c : Nat} (h : RSt n msg s B c) (hb : s.st.currentBit < 8) :
    Asn1.inBounds s.st = true := by
  unfold Asn1.inBounds
  have := h.lt; have := h.count
  exact decide_eq_true (by omega)

/-- A call in both builds. -/
def SimOp {α : Type} (n : Nat) (msg : List Byte) (f : M α) (g : RM α) (s : RStream) (t : BitStream) : Prop :=
  ∃ r s' t', f t = .ok (r, t') ∧ g s = .ok (r, s') ∧ Sim n msg s' t'

theorem Sim.inBounds {n : Nat} {msg : List Byte} {s : RStream} {t : BitStream} (h : Sim n msg s t) : Asn1.inBounds s.st = true := by
  obtain ⟨⟨c, hc⟩, hb, hb8, -⟩ := h
  exact hc.inBounds (by omega)

theorem simBit {n : Nat} {msg : List Byte} (hn : 0 < n) {s : RStream} {t : BitStream} (h : Sim n msg s t)
    (hroom : t.pos + 1 ≤ 8 * t.count) : SimOp n msg readBit rReadBit s t := by
  obtain ⟨⟨c, hc⟩, hb, hb8, ht⟩ := h
  have hcnt := ht.count
  unfold BitStream.pos at hroom
  have hB : t.currentByte < msg.length := by omega
  obtain ⟨m, hm⟩ := masks_some hb8
  by_cases h7 : t.currentBit < 7
  · have hT : readBit t = .ok ((true, decide (msg.getD t.currentByte 0#8 &&& m ≠ 0#8)), { t with currentBit := t.currentBit + 1 }) := by
      have hst : stepBit t = .ok ((), { t with currentBit := t.currentBit + 1 }) := by
        unfold stepBit; rw [modS_run, if_pos h7]
      unfold readBit
      rw [getS_bind, bind_ok (ht.get hB), bind_ok (hm _), bind_ok hst, getS_bind, pure_run]
      congr 3
      exact decide_eq_true (by dsimp only; omega)
    have hsim : Sim n msg ⟨{ s.st with currentBit := s.st.currentBit + 1 }, s.rest⟩ { t with currentBit := t.currentBit + 1 } :=
      ⟨⟨c, hc.setBit⟩, by dsimp only; omega, by dsimp only; omega, ht.count, ht.buf⟩
    refine ⟨_, _, _, hT, ?_, hsim⟩
    unfold rReadBit
    rw [liftR_getS_bind, liftR_bind_ok hc.get, hb, liftR_bind_ok (hm _), if_pos h7, liftR_modS_bind, liftR_getS_bind, rpure_run]
    have := hsim.inBounds
    dsimp only at this ⊢
    rw [hb] at this ⊢
    rw [this]
  · have hT : readBit t = .ok ((true, decide (msg.getD t.currentByte 0#8 &&& m ≠ 0#8)),
        { t with currentBit := 0, currentByte := t.currentByte + 1 }) := by
      have hst : stepBit t = .ok ((), { t with currentBit := 0, currentByte := t.currentByte + 1 }) := by
        unfold stepBit; rw [modS_run, if_neg h7]
      unfold readBit
      rw [getS_bind, bind_ok (ht.get hB), bind_ok (hm _), bind_ok hst, getS_bind, pure_run]
      congr 3
      exact decide_eq_true (by dsimp only; omega)
    obtain ⟨s', c', hf, hR, hbit⟩ := RMid.fetch hn (RSt.next (hc.setBit (b := 0)) (k := 1) (by have := hc.lt; dsimp only; omega))
    have hsim : Sim n msg s' { t with currentBit := 0, currentByte := t.currentByte + 1 } :=
      ⟨⟨c', hR⟩, hbit, Nat.zero_lt_succ _, ht.count, ht.buf⟩
    refine ⟨_, _, _, hT, ?_, hsim⟩
    unfold rReadBit
    rw [liftR_getS_bind, liftR_bind_ok hc.get, hb, liftR_bind_ok (hm _), if_neg h7]
    have e : (liftR (modS fun s => { s with currentBit := 0, currentByte := s.currentByte + 1 }) >>= fun _ => fetchIfRequired)
        s = .ok ((), s') := by rw [liftR_modS_bind]; exact hf
    rw [rbind_ok e, liftR_getS_bind, rpure_run, hsim.inBounds]

theorem simPeek {n : Nat} {msg : List Byte} {s : RStream} {t : BitStream} (h : Sim n msg s t)
    (hroom : t.pos + 1 ≤ 8 * t.count) : SimOp n msg peekBit rPeekBit s t := by
  have h' := h
  obtain ⟨⟨c, hc⟩, hb, hb8, ht⟩ := h
  have hcnt := ht.count
  unfold BitStream.pos at hroom
  have hB : t.currentByte < msg.length := by omega
  obtain ⟨m, hm⟩ := masks_some hb8
  refine ⟨decide (msg.getD t.currentByte 0#8 &&& m ≠ 0#8), s, t, ?_, ?_, h'⟩
  · unfold peekBit
    rw [getS_bind, bind_ok (ht.get hB), bind_ok (hm _), pure_run]
  · unfold rPeekBit liftR peekBit
    rw [getS_bind, bind_ok hc.get, hb, bind_ok (hm _), pure_run]

theorem simByte {n : Nat} {msg : List Byte} (hn : 0 < n) {s : RStream} {t : BitStream} (h : Sim n msg s t)
    (hl : ROp.byte.LegalAt n t.pos) (hroom : t.pos + 8 ≤ 8 * t.count) : SimOp n msg readByte rReadByte s t := by
  obtain ⟨⟨c, hc⟩, hb, hb8, ht⟩ := h
  have hcnt := ht.count
  have hmod := hc.mod
  unfold BitStream.pos at hroom
  have hB : t.currentByte < msg.length := by omega
  have hp : t.pos / 8 = t.currentByte := by unfold BitStream.pos; omega
  have hp8 : t.pos % 8 = t.currentBit := by unfold BitStream.pos; omega
  simp only [ROp.LegalAt] at hl
  rw [hp, hp8, hmod] at hl
  obtain ⟨s', c', hf, hR, hbit⟩ := RMid.fetch hn (RSt.next hc (k := 1) (by have := hc.lt; omega))
  have hsim : Sim n msg s' { t with currentByte := t.currentByte + 1 } := ⟨⟨c', hR⟩, hbit.trans hb, hb8, ht.count, ht.buf⟩
  have hlt := hc.lt
  have hsc := hc.count
  have e : (liftR incByte >>= fun _ => fetchIfRequired) s = .ok ((), s') := by rw [liftR_incByte_bind]; exact hf
  by_cases h0 : t.currentBit > 0
  · refine ⟨(true, (msg.getD t.currentByte 0#8 <<< t.currentBit) ||| (msg.getD (t.currentByte + 1) 0#8 >>> (8 - t.currentBit))),
      s', { t with currentByte := t.currentByte + 1 }, ?_, ?_, hsim⟩
    · unfold readByte
      rw [getS_bind]
      rw [if_pos h0, if_neg (by omega), bind_ok (ht.get hB)]
      have hi : incByte t = .ok ((), { t with currentByte := t.currentByte + 1 }) := rfl
      have ht' : TSt msg { t with currentByte := t.currentByte + 1 } := ⟨ht.count, ht.buf⟩
      rw [bind_ok hi, if_pos h0, bind_ok (ht'.get (by omega)), pure_run]
    · unfold rReadByte
      rw [liftR_getS_bind]
      rw [hb, if_pos h0, if_neg (by omega), liftR_bind_ok hc.get, liftR_incByte_bind, rbind_ok hf, if_pos h0, liftR_getS_bind,
        liftR_bind_ok hR.get, rpure_run]
  · refine ⟨(true, msg.getD t.currentByte 0#8 <<< t.currentBit), s', { t with currentByte := t.currentByte + 1 }, ?_, ?_, hsim⟩
    · unfold readByte
      rw [getS_bind]
      rw [if_neg h0, if_neg (by omega), bind_ok (ht.get hB)]
      have hi : incByte t = .ok ((), { t with currentByte := t.currentByte + 1 }) := rfl
      rw [bind_ok hi, if_neg h0, pure_run]
    · unfold rReadByte
      rw [liftR_getS_bind]
      rw [hb, if_neg h0, if_neg (by omega), liftR_bind_ok hc.get, liftR_incByte_bind, rbind_ok hf, if_neg h0, rpure_run]

theorem simPart {n : Nat} {msg : List Byte} (hn : 0 < n) {s : RStream} {t : BitStream} (h : Sim n msg s t) {k : Nat} (hk0 : 0 < k)
    (hk : k < 8) (hroom : t.pos + k ≤ 8 * t.count) : SimOp n msg (readPartialByte k) (rReadPartialByte k) s t := by
  obtain ⟨⟨c, hc⟩, hb, hb8, ht⟩ := h
  have hcnt := ht.count
  unfold BitStream.pos at hroom
  have hB : t.currentByte < msg.length := by omega
  obtain ⟨m, hm⟩ := masksb_some (b := k) (by omega)
  by_cases h8 : t.currentBit + k ≤ 8
  · by_cases he : t.currentBit + k = 8
    · obtain ⟨s', c', hf, hR, hbit⟩ := RMid.fetch hn (RSt.next (hc.setBit (b := 0)) (k := 1) (by have := hc.lt; dsimp only; omega))
      have hsim : Sim n msg s' { t with currentBit := 0, currentByte := t.currentByte + 1 } :=
        ⟨⟨c', hR⟩, hbit, Nat.zero_lt_succ _, ht.count, ht.buf⟩
      refine ⟨(true, (msg.getD t.currentByte 0#8 >>> (8 - (t.currentBit + k))) &&& m), s', _, ?_, ?_, hsim⟩
      · unfold readPartialByte
        rw [getS_bind]
        dsimp only
        rw [if_pos h8, bind_ok (ht.get hB), bind_ok (hm _), modS_bind, getS_bind, if_pos he, pure_run]
        congr 3
        exact decide_eq_true (by dsimp only; omega)
      · unfold rReadPartialByte
        rw [liftR_getS_bind]
        dsimp only
        rw [hb, if_pos h8, liftR_bind_ok hc.get, liftR_bind_ok (hm _), if_pos he]
        have e : (liftR (modS fun s => { s with currentBit := 0, currentByte := s.currentByte + 1 }) >>= fun _ => fetchIfRequired)
            s = .ok ((), s') := by rw [liftR_modS_bind]; exact hf
        rw [rbind_ok e, liftR_getS_bind, rpure_run, hsim.inBounds]
    · have hsim : Sim n msg ⟨{ s.st with currentBit := s.st.currentBit + k }, s.rest⟩ { t with currentBit := t.currentBit + k } :=
        ⟨⟨c, hc.setBit⟩, by dsimp only; omega, by dsimp only; omega, ht.count, ht.buf⟩
      refine ⟨(true, (msg.getD t.currentByte 0#8 >>> (8 - (t.currentBit + k))) &&& m), _, _, ?_, ?_, hsim⟩
      · unfold readPartialByte
        rw [getS_bind]
        dsimp only
        rw [if_pos h8, bind_ok (ht.get hB), bind_ok (hm _), modS_bind, getS_bind, if_neg he, pure_run]
        congr 3
        exact decide_eq_true (by dsimp only; omega)
      · unfold rReadPartialByte
        rw [liftR_getS_bind]
        dsimp only
        rw [hb, if_pos h8, liftR_bind_ok hc.get, liftR_bind_ok (hm _), if_neg he, liftR_modS_bind, liftR_getS_bind, rpure_run]
        have := hsim.inBounds
        dsimp only at this ⊢
        rw [hb] at this ⊢
        rw [this]
  · obtain ⟨s', c', hf, hR, hbit⟩ := RMid.fetch hn (RSt.next hc (k := 1) (by have := hc.lt; omega))
    have hsim : Sim n msg ⟨{ s'.st with currentBit := t.currentBit + k - 8 }, s'.rest⟩
        { t with currentByte := t.currentByte + 1, currentBit := t.currentBit + k - 8 } :=
      ⟨⟨c', hR.setBit⟩, rfl, by dsimp only; omega, ht.count, ht.buf⟩
    refine ⟨(true, ((msg.getD t.currentByte 0#8 <<< (t.currentBit + k - 8)) |||
      (msg.getD (t.currentByte + 1) 0#8 >>> (8 - (t.currentBit + k - 8)))) &&& m), _, _, ?_, ?_, hsim⟩
    · unfold readPartialByte
      rw [getS_bind]
      dsimp only
      have hi : incByte t = .ok ((), { t with currentByte := t.currentByte + 1 }) := rfl
      have ht' : TSt msg { t with currentByte := t.currentByte + 1 } := ⟨ht.count, ht.buf⟩
      rw [if_neg h8, bind_ok (ht.get hB), bind_ok hi, bind_ok (ht'.get (by omega)), bind_ok (hm _), modS_bind, getS_bind, pure_run]
      congr 3
      exact decide_eq_true (by dsimp only; omega)
    · unfold rReadPartialByte
      rw [liftR_getS_bind]
      dsimp only
      rw [hb, if_neg h8, liftR_bind_ok hc.get, liftR_incByte_bind, rbind_ok hf, liftR_getS_bind, liftR_bind_ok hR.get,
        liftR_bind_ok (hm _), liftR_modS_bind, liftR_getS_bind, rpure_run, hsim.inBounds]

theorem TSt.cap {msg : List Byte} {t : BitStream} (h : TSt msg t) : msg.length ≤ t.buf.length := by
  refine Nat.le_of_not_lt fun hc => ?_
  have := h.buf t.buf.length hc
  rw [List.getElem?_eq_none (Nat.le_refl _)] at this
  cases this

theorem same_slice {n : Nat} {msg : List Byte} {s : RStream} {t : BitStream} {c k : Nat} (hc : RSt n msg s t.currentByte c)
    (ht : TSt msg t) (h1 : s.st.currentByte + k ≤ n) (h2 : t.currentByte + k ≤ msg.length) :
    (s.st.buf.drop s.st.currentByte).take k = (t.buf.drop t.currentByte).take k := by
  apply List.ext_getElem?
  intro i
  by_cases hi : i < k
  · rw [List.getElem?_take_of_lt hi, List.getElem?_take_of_lt hi, List.getElem?_drop, List.getElem?_drop,
      hc.buf _ (by omega), ht.buf _ (by omega), hc.byte, Nat.add_assoc]
  · rw [List.getElem?_eq_none (by rw [List.length_take]; omega), List.getElem?_eq_none (by rw [List.length_take]; omega)]

theorem fetch_skip {s : RStream} (h : s.st.currentByte ≠ s.st.count) : fetchIfRequired s = .ok ((), s) := by
  unfold fetchIfRequired; rw [if_neg h]

theorem simLoop {n : Nat} {msg : List Byte} {s : RStream} {t : BitStream} {c B : Nat} (hc : RSt n msg s B c) (ht : TSt msg t)
    (cb ncb : Nat) : ∀ k rb, rb + k < n → c * n + rb + k < msg.length →
    ∃ r, readByteArrayLoop cb ncb k (c * n + rb) t = .ok (r, t) ∧ rReadByteArrayLoop cb ncb k rb s = .ok (r, s) := by
  intro k
  induction k with
  | zero => intro rb _ _; exact ⟨[], rfl, rfl⟩
  | succ k ih =>
    intro rb h1 h2
    obtain ⟨r, e1, e2⟩ := ih (rb + 1) (by omega) (by omega)
    have g : ∀ j, j < n → bufGet j s.st = .ok (msg.getD (c * n + j) 0#8, s.st) := by
      intro j hj; unfold bufGet; rw [hc.buf j hj]
    refine ⟨((msg.getD (c * n + rb) 0#8 <<< cb) ||| (msg.getD (c * n + (rb + 1)) 0#8 >>> ncb)) :: r, ?_, ?_⟩
    · unfold readByteArrayLoop
      rw [bind_ok (ht.get (by omega)), bind_ok (ht.get (by omega)), Nat.add_assoc, bind_ok e1, pure_run]
    · unfold rReadByteArrayLoop
      rw [liftR_bind_ok (g _ (by omega)), rbind_ok (fetch_skip (by show s.st.currentByte ≠ s.st.count; rw [hc.count]; have := hc.lt; omega)),
        liftR_bind_ok (g _ (by omega)), rbind_ok e2, rpure_run]

theorem simOctets {n : Nat} {msg : List Byte} (hn : 0 < n) {s : RStream} {t : BitStream} (h : Sim n msg s t) {k : Nat}
    (hl : (ROp.octets k).LegalAt n t.pos) (hroom : t.pos + 8 * k ≤ 8 * t.count) :
    SimOp n msg (decodeOctetStringNoLength k) (rDecodeOctetStringNoLength k) s t := by
  have h' := h
  obtain ⟨⟨c, hc⟩, hb, hb8, ht⟩ := h
  have hcnt := ht.count
  have hcap := ht.cap
  have hmod := hc.mod
  have hp : t.pos / 8 = t.currentByte := by unfold BitStream.pos; omega
  have hp8 : t.pos % 8 = t.currentBit := by unfold BitStream.pos; omega
  unfold BitStream.pos at hroom
  simp only [ROp.LegalAt] at hl
  rw [hp, hp8, hmod] at hl
  have hlt := hc.lt
  have hsc := hc.count
  have hscap := hc.cap
  by_cases h0 : t.currentBit = 0
  · have hk : s.st.currentByte + k ≤ n := by omega
    have hT : decodeOctetStringNoLength k t =
        .ok ((true, (t.buf.drop t.currentByte).take k), { t with currentByte := t.currentByte + k }) := by
      unfold decodeOctetStringNoLength
      rw [getS_bind, if_pos h0, if_pos (by omega)]
      have e : memcpyOut t.currentByte k t = .ok ((t.buf.drop t.currentByte).take k, t) := by
        unfold memcpyOut; rw [if_pos (by omega)]
      rw [bind_ok e, modS_bind, pure_run]
    obtain ⟨s', c', hf, hR, hbit⟩ := RMid.fetch hn (RSt.next hc (k := k) hk)
    have hsim : Sim n msg s' { t with currentByte := t.currentByte + k } := ⟨⟨c', hR⟩, hbit.trans hb, hb8, ht.count, ht.buf⟩
    by_cases hk0 : k = 0
    · subst hk0
      refine ⟨_, s, _, hT, ?_, ?_⟩
      · unfold rDecodeOctetStringNoLength
        rw [liftR_getS_bind, if_pos (hb.trans h0)]
        have e : rOctetsLoop (0 + 1) 0 [] s = .ok ([], s) := rfl
        rw [rbind_ok e, rpure_run, List.take_zero]
      · exact h'
    refine ⟨_, s', _, hT, ?_, hsim⟩
    unfold rDecodeOctetStringNoLength
    rw [liftR_getS_bind, if_pos (hb.trans h0)]
    have e : rOctetsLoop (k + 1) k [] s = .ok ((t.buf.drop t.currentByte).take k, s') := by
      rw [rOctetsLoop, if_pos (by omega), liftR_getS_bind, if_neg (by omega)]
      have e2 : memcpyOut s.st.currentByte k s.st = .ok ((t.buf.drop t.currentByte).take k, s.st) := by
        unfold memcpyOut; rw [if_pos (by omega), same_slice hc ht hk (by omega)]
      rw [if_pos (by omega), liftR_bind_ok e2, liftR_modS_bind, rbind_ok hf, Nat.sub_self, List.drop_nil, List.append_nil]
      obtain ⟨j, rfl⟩ : ∃ j, k = j + 1 := ⟨k - 1, by omega⟩
      rw [rOctetsLoop, if_neg (by omega), rpure_run]
    rw [rbind_ok e, rpure_run]
  · have hk : s.st.currentByte + k < n := by omega
    obtain ⟨r, e1, e2⟩ := simLoop hc ht t.currentBit (8 - t.currentBit) k s.st.currentByte hk (by have := hc.byte; omega)
    rw [← hc.byte] at e1
    have hsim : Sim n msg ⟨{ s.st with currentByte := s.st.currentByte + k }, s.rest⟩ { t with currentByte := t.currentByte + k } :=
      ⟨⟨c, RSt.next hc (by omega), hk⟩, hb, hb8, ht.count, ht.buf⟩
    refine ⟨(true, r), _, _, ?_, ?_, hsim⟩
    · unfold decodeOctetStringNoLength readByteArray
      rw [getS_bind, if_neg h0, getS_bind]
      rw [if_neg (by omega), bind_ok e1, modS_bind, pure_run]
    · unfold rDecodeOctetStringNoLength rReadByteArray
      rw [liftR_getS_bind, if_neg (by omega), liftR_getS_bind, hb, rbind_ok e2, liftR_modS_bind, rpure_run]

/-- Every legal call. -/
theorem ROp.sim {n : Nat} {msg : List Byte} (hn : 0 < n) (o : ROp) {s : RStream} {t : BitStream} (h : Sim n msg s t)
    (hl : o.LegalAt n t.pos) (hroom : t.pos + o.size ≤ 8 * t.count) : SimOp n msg o.run o.sRun s t := by
  cases o with
  | bit => exact simBit hn h hroom
  | peek => exact simPeek h hroom
  | byte => exact simByte hn h hl hroom
  | part k => exact simPart hn h hl.1 hl.2 hroom
  | octets k => exact simOctets hn h hl hroom

/-- Programs. -/
theorem RProg.sim {α : Type} {n : Nat} {msg : List Byte} (hn : 0 < n) (p : RProg α) : ∀ (s : RStream) (t : BitStream), Sim n msg s t →
    p.LegalOn n t →
    (∃ a s' t', p.run t = .ok (a, t') ∧ p.sRun s = .ok (a, s') ∧ Sim n msg s' t') ∨ (p.run t = .ub ∧ p.sRun s = .ub) ∨
      (p.run t = .abort ∧ p.sRun s = .abort) := by
  induction p with
  | done a => intro s t h _; exact Or.inl ⟨a, s, t, rfl, rfl, h⟩
  | ub => intro s t _ _; exact Or.inr (Or.inl ⟨rfl, rfl⟩)
  | abort => intro s t _ _; exact Or.inr (Or.inr ⟨rfl, rfl⟩)
  | op o k ih =>
    intro s t h hl
    unfold RProg.LegalOn at hl
    obtain ⟨r, s', t', e1, e2, h'⟩ := o.sim hn h hl.1 hl.2.1
    rw [e1] at hl
    have := ih r s' t' h' hl.2.2
    unfold RProg.run RProg.sRun
    rw [bind_ok e1, rbind_ok e2]
    exact this

/-- The two ways to start. -/
theorem sim_start {n : Nat} {msg behind slack : List Byte} (hn : 0 < n) (hmsg : n ≤ msg.length) :
    Sim n msg (bitStreamAttach2 msg n behind) (bitStreamAttach (msg ++ slack) msg.length) := by
  have hlen : (msg.take n).length = n := by rw [List.length_take]; omega
  refine ⟨⟨0, ⟨rfl, ?_, Nat.zero_le _, ?_, ?_, ?_⟩, hn⟩, rfl, Nat.zero_lt_succ _, rfl, ?_⟩
  · show n ≤ (msg.take n ++ behind).length
    rw [List.length_append]; omega
  · show 0 = 0 * n + 0
    omega
  · intro j hj
    show (msg.take n ++ behind)[j]? = _
    rw [List.getElem?_append_left (by omega), List.getElem?_take_of_lt hj, Nat.zero_mul, Nat.zero_add,
      List.getD_eq_getElem?_getD, List.getElem?_eq_getElem (by omega)]
    rfl
  · show msg.drop n = msg.drop ((0 + 1) * n)
    congr 1; omega
  · intro j hj
    show (msg ++ slack)[j]? = _
    rw [List.getElem?_append_left hj, List.getD_eq_getElem?_getD, List.getElem?_eq_getElem hj]
    rfl

end Asn1
