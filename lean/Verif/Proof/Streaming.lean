import Verif.Spec.Streaming
import Verif.Proof.Calls
/-! The primitives of the streaming build write exactly the bits they should. -/
namespace Asn1

/-! ### Running -/

theorem sbind_def {α β : Type} (x : SM α) (f : α → SM β) (s : SStream) :
    (x >>= f) s = match x s with
      | .ok (a, s') => f a s'
      | .ub => .ub
      | .abort => .abort := rfl

theorem sbind_ok {α β : Type} {x : SM α} {f : α → SM β} {s s' : SStream} {a : α} (h : x s = .ok (a, s')) :
    (x >>= f) s = f a s' := by rw [sbind_def, h]

theorem liftS_ok {α : Type} {f : M α} {s : SStream} {a : α} {t : BitStream} (h : f s.st = .ok (a, t)) :
    liftS f s = .ok (a, { s with st := t }) := by rw [liftS, h]

theorem liftS_bind_ok {α β : Type} {f : M α} {g : α → SM β} {s : SStream} {a : α} {t : BitStream} (h : f s.st = .ok (a, t)) :
    (liftS f >>= g) s = g a { s with st := t } := sbind_ok (liftS_ok h)

theorem liftS_getS_bind {β : Type} (f : BitStream → SM β) (s : SStream) : (liftS getS >>= f) s = f s.st s := rfl

theorem liftS_modS_bind {β : Type} (g : BitStream → BitStream) (f : Unit → SM β) (s : SStream) :
    (liftS (modS g) >>= f) s = f () { s with st := g s.st } := rfl

theorem spure_run {α : Type} (a : α) (s : SStream) : (pure a : SM α) s = .ok (a, s) := rfl

theorem spure_bind {α β : Type} (a : α) (f : α → SM β) (s : SStream) : ((pure a : SM α) >>= f) s = f a s := rfl

theorem liftS_tbl_bind {α β : Type} {t : List α} {i : Nat} {b : α} {s : SStream} (h : t[i]? = some b)
    (f : α → SM β) : (liftS (tblGet t i) >>= f) s = f b s := liftS_bind_ok (t := s.st) (by simp [tblGet, h])

/-! ### Buffers -/

/-- The buffer begins with the bits `w`; if `z`, the remaining bits of the `count` bytes are 0. -/
structure Hold (z : Bool) (buf : List Byte) (count : Nat) (w : List Bool) : Prop where
  cap : count ≤ buf.length
  room : w.length ≤ 8 * count
  bits : ∀ i, i < w.length → bitAt buf i = w[i]?.getD false
  rest : z = true → ∀ i, w.length ≤ i → i < 8 * count → bitAt buf i = false

theorem Hold.old {z : Bool} {buf : List Byte} {count : Nat} {w : List Bool} (h : Hold z buf count w) {k c : Nat}
    (hp : w.length = 8 * k + c) (hk : k < count) (hz : z = true) {j : Nat} (h1 : c ≤ j) (h2 : j < 8) :
    (buf.getD k 0#8).getMsbD j = false := by
  rw [← bitAt_def' buf k j h2]
  exact h.rest hz _ (by omega) (by omega)

/-- Writing a byte so that `v` follows the bits held. -/
theorem Hold.put {z : Bool} {buf : List Byte} {count : Nat} {w : List Bool} (h : Hold z buf count w) {k c : Nat}
    (hp : w.length = 8 * k + c) (hk : k < count) {v : List Bool} (hv : c + v.length ≤ 8) {x : Byte}
    (hx1 : ∀ j, j < c → x.getMsbD j = (buf.getD k 0#8).getMsbD j)
    (hx2 : ∀ j, j < v.length → x.getMsbD (c + j) = v[j]?.getD false)
    (hx3 : z = true → ∀ j, c + v.length ≤ j → j < 8 → x.getMsbD j = false) :
    Hold z (buf.set k x) count (w ++ v) := by
  have hcap := h.cap
  refine ⟨by simpa using hcap, by rw [List.length_append]; omega, ?_, ?_⟩
  · intro i hi
    rw [List.length_append] at hi
    rw [bitAt_set _ _ _ _ (by omega), List.getElem?_append]
    by_cases h1 : i < w.length
    · rw [if_pos h1, ← h.bits i h1]
      by_cases h2 : i / 8 = k
      · rw [if_pos h2, hx1 _ (by omega)]; simp only [bitAt, h2]
      · rw [if_neg h2]
    · rw [if_neg h1, if_pos (by omega), ← hx2 _ (by omega)]
      congr 1; omega
  · intro hz i h1 h2
    rw [List.length_append] at h1
    rw [bitAt_set _ _ _ _ (by omega)]
    by_cases h3 : i / 8 = k
    · rw [if_pos h3]; exact hx3 hz _ (by omega) (by omega)
    · rw [if_neg h3]; exact h.rest hz _ (by omega) h2

theorem getD_ext {a b : List Bool} (hl : a.length = b.length) (h : ∀ i, i < a.length → a[i]?.getD false = b[i]?.getD false) :
    a = b := by
  apply List.ext_getElem hl
  intro i h1 h2
  have := h i h1
  simpa [List.getElem?_eq_getElem h1, List.getElem?_eq_getElem h2] using this

theorem bitAt_take {buf : List Byte} {k i : Nat} (h : i < 8 * k) : bitAt (buf.take k) i = bitAt buf i := by
  simp only [bitAt, List.getD_eq_getElem?_getD, List.getElem?_take]
  rw [if_pos (by omega)]

theorem Hold.flush {z : Bool} {buf : List Byte} {count : Nat} {w : List Bool} (h : Hold z buf count w) {k : Nat}
    (hp : w.length = 8 * k) : bytesBits (buf.take k) = w := by
  have hcap := h.cap
  have hroom := h.room
  apply getD_ext
  · rw [bytesBits_length, List.length_take]; omega
  · intro i hi
    rw [bytesBits_length, List.length_take] at hi
    rw [bytesBits_getD, bitAt_take (by omega), h.bits i (by omega)]

theorem Hold.empty {z : Bool} {buf : List Byte} {count : Nat} (hc : count ≤ buf.length)
    (hz : z = true → buf = List.replicate buf.length 0#8) : Hold z buf count [] := by
  refine ⟨hc, by simp, by simp, ?_⟩
  intro h i _ _
  rw [hz h]
  simp only [bitAt, List.getD_eq_getElem?_getD, List.getElem?_replicate]
  split <;> simp

/-! ### States -/

/-- The streaming encoder has written the bits `bs`. -/
structure SSt (z : Bool) (n : Nat) (s : SStream) (bs : List Bool) : Prop where
  count : s.st.count = n
  bit : s.st.currentBit < 8
  byte : s.st.currentByte < n
  whole : s.sent.length % n = 0
  held : ∃ tail, bytesBits s.sent ++ tail = bs ∧ Hold z s.st.buf n tail ∧ tail.length = s.st.pos

/-- In the middle of a call: the cursor byte is `k`, all bits before it are written. -/
structure SMid (z : Bool) (n : Nat) (s : SStream) (bs : List Bool) : Prop where
  count : s.st.count = n
  byte : s.st.currentByte ≤ n
  whole : s.sent.length % n = 0
  held : ∃ tail, bytesBits s.sent ++ tail = bs ∧ Hold z s.st.buf n tail ∧ tail.length = 8 * s.st.currentByte

theorem SSt.pos_mod {z : Bool} {n : Nat} {s : SStream} {bs : List Bool} (h : SSt z n s bs) : bs.length % (8 * n) = s.st.pos := by
  obtain ⟨tail, rfl, hh, hl⟩ := h.held
  have hb := h.bit
  have hby := h.byte
  have hw := h.whole
  obtain ⟨q, hq⟩ := Nat.dvd_of_mod_eq_zero hw
  rw [List.length_append, bytesBits_length, hq, hl, ← Nat.mul_assoc, Nat.mul_add_mod]
  exact Nat.mod_eq_of_lt (by simp only [BitStream.pos]; omega)

theorem SSt.pos_mod8 {z : Bool} {n : Nat} {s : SStream} {bs : List Bool} (h : SSt z n s bs) : bs.length % 8 = s.st.currentBit := by
  obtain ⟨tail, rfl, hh, hl⟩ := h.held
  have hb := h.bit
  rw [List.length_append, bytesBits_length, hl]
  simp only [BitStream.pos]; omega

theorem push_run {z : Bool} {n : Nat} {left : List Byte → List Byte → List Byte} (hleft : Leaves z left) (hn : 0 < n)
    {s : SStream} {bs : List Bool} (h : SMid z n s bs) :
    ∃ s', pushIfRequired left s = .ok ((), s') ∧ SMid z n s' bs ∧ s'.st.currentByte < n ∧ s'.st.currentBit = s.st.currentBit := by
  obtain ⟨tail, hbs, hh, hl⟩ := h.held
  have hc := h.count
  by_cases e : s.st.currentByte = s.st.count
  · refine ⟨⟨{ s.st with buf := left s.sent s.st.buf, currentByte := 0 }, s.sent ++ s.st.buf.take s.st.currentByte⟩,
      by rw [pushIfRequired, if_pos e], ⟨hc, by simp, ?_, ?_⟩, hn, rfl⟩
    · simp only [List.length_append, List.length_take]
      have := hh.cap
      have hw := h.whole
      rw [e, hc, Nat.min_eq_left this, Nat.add_mod_right]; exact hw
    · refine ⟨[], ?_, Hold.empty ?_ ?_, rfl⟩
      · simp only [bytesBits_append, List.append_nil]
        rw [hh.flush hl]; exact hbs
      · simp only [hleft.1]; exact hh.cap
      · intro hz; simp only [hleft.2 hz, List.length_replicate]
  · refine ⟨s, by rw [pushIfRequired, if_neg e], h, ?_, rfl⟩
    have := h.byte
    omega

/-- A call in the streaming build appends the bits `w`. -/
def SAppendsAt {α : Type} (z : Bool) (n pos : Nat) (f : SM α) (a : α) (w : List Bool) : Prop :=
  ∀ s bs, SSt z n s bs → bs.length = pos → ∃ s', f s = .ok (a, s') ∧ SSt z n s' (bs ++ w)

/-- A state in the middle of a call whose cursor is at a byte boundary is a state between calls. -/
theorem SMid.done {z : Bool} {n : Nat} {s : SStream} {bs : List Bool} (h : SMid z n s bs) (hb : s.st.currentByte < n)
    (h0 : s.st.currentBit = 0) : SSt z n s bs := by
  obtain ⟨tail, hbs, hh, hl⟩ := h.held
  exact ⟨h.count, by omega, hb, h.whole, tail, hbs, hh, by simp only [BitStream.pos]; omega⟩

theorem assert_run {z : Bool} {n : Nat} {s : SStream} {bs : List Bool} (h : SSt z n s bs) :
    liftS assertInBounds s = .ok ((), s) := by
  have h1 := h.bit
  have h2 := h.byte
  have h3 := h.count
  exact liftS_ok (t := s.st) (assertInBounds_run (by simp only [BitStream.pos]; omega))

/-- The step of a bit function after the byte was written. -/
theorem sStepBit_run {z : Bool} {n : Nat} {left : List Byte → List Byte → List Byte} (hleft : Leaves z left)
    {s : SStream} {tail bs : List Bool} {buf : List Byte} (hcount : s.st.count = n) (hbit : s.st.currentBit < 8)
    (hbyte : s.st.currentByte < n) (hw : s.sent.length % n = 0) (hbs : bytesBits s.sent ++ tail = bs)
    (hh : Hold z buf n tail) (hl : tail.length = s.st.pos + 1) :
    ∃ s', sStepBit left { s with st := { s.st with buf := buf } } = .ok ((), s') ∧ SSt z n s' bs := by
  rw [sStepBit, liftS_getS_bind]
  by_cases h7 : s.st.currentBit < 7
  · rw [if_pos h7]
    refine ⟨_, rfl, ⟨hcount, by simp only []; omega, hbyte, hw, tail, hbs, hh, ?_⟩⟩
    simp only [BitStream.pos] at hl ⊢; omega
  · rw [if_neg h7, liftS_modS_bind]
    obtain ⟨s', hr, hm, hlt, hb⟩ := push_run (z := z) (n := n) hleft (by omega)
      (s := { s with st := { s.st with buf := buf, currentBit := 0, currentByte := s.st.currentByte + 1 } }) (bs := bs)
      ⟨hcount, by simp only []; omega, hw, tail, hbs, hh, by simp only [BitStream.pos] at hl ⊢; omega⟩
    exact ⟨s', hr, hm.done hlt hb⟩

theorem sAppendBit_appends {z : Bool} {n : Nat} {left : List Byte → List Byte → List Byte} (hleft : Leaves z left) (v : Bool) (pos : Nat) :
    SAppendsAt z n pos (sAppendBit left v) () [v] := by
  intro s bs hs _
  obtain ⟨tail, hbs, hh, hl⟩ := hs.held
  have hb := hs.bit
  have hby := hs.byte
  have hcap := hh.cap
  have hk : s.st.currentByte < s.st.buf.length := by omega
  have hm := masks_get hb
  rw [sAppendBit, liftS_getS_bind, liftS_tbl_bind hm]
  have key : ∃ x : Byte, Hold z (s.st.buf.set s.st.currentByte x) n (tail ++ [v]) ∧
      (if v = true then bufOr s.st.currentByte (BitVec.ofNat 8 (2 ^ (7 - s.st.currentBit)))
        else bufAnd s.st.currentByte (~~~(BitVec.ofNat 8 (2 ^ (7 - s.st.currentBit))))) s.st =
      .ok ((), { s.st with buf := s.st.buf.set s.st.currentByte x }) := by
    cases v
    · refine ⟨_, ?_, by simp only [Bool.false_eq_true, if_false]; exact bufAnd_run hk⟩
      refine hh.put (c := s.st.currentBit) hl hby (by simp; omega) ?_ ?_ ?_
      · intro j hj
        simp only [BitVec.getMsbD_and, BitVec.getMsbD_not, masks_bit hb (show j < 8 by omega)]
        simp [show j ≠ s.st.currentBit by omega]; omega
      · intro j hj
        simp only [List.length_singleton] at hj
        have : j = 0 := by omega
        subst this
        simp only [BitVec.getMsbD_and, BitVec.getMsbD_not, Nat.add_zero, masks_bit hb hb]
        simp
      · intro hz j h1 h2
        simp only [List.length_singleton] at h1
        simp only [BitVec.getMsbD_and, hh.old (c := s.st.currentBit) hl hby hz (by omega) h2, Bool.false_and]
    · refine ⟨_, ?_, by simp only [if_true]; exact bufOr_run hk⟩
      refine hh.put (c := s.st.currentBit) hl hby (by simp; omega) ?_ ?_ ?_
      · intro j hj
        simp only [BitVec.getMsbD_or, masks_bit hb (show j < 8 by omega)]
        simp [show j ≠ s.st.currentBit by omega]
      · intro j hj
        simp only [List.length_singleton] at hj
        have : j = 0 := by omega
        subst this
        simp only [BitVec.getMsbD_or, Nat.add_zero, masks_bit hb hb]
        simp
      · intro hz j h1 h2
        simp only [List.length_singleton] at h1
        simp only [BitVec.getMsbD_or, hh.old (c := s.st.currentBit) hl hby hz (show s.st.currentBit ≤ j by omega) h2,
          masks_bit hb h2]
        simp; omega
  obtain ⟨x, hx, hrun⟩ := key
  rw [liftS_bind_ok hrun]
  obtain ⟨s', hr, hs'⟩ := sStepBit_run (s := s) (bs := bs ++ [v]) hleft hs.count hb hby hs.whole (by rw [← List.append_assoc, hbs]) hx
    (by simp only [List.length_append, List.length_singleton, hl])
  refine ⟨s', ?_, hs'⟩
  rw [sbind_ok hr, assert_run hs']

theorem sAppendBitOne_eq (left : List Byte → List Byte → List Byte) : sAppendBitOne left = sAppendBit left true := by
  simp only [sAppendBitOne, sAppendBit, if_true]

theorem sAppendBitZero_eq (left : List Byte → List Byte → List Byte) : sAppendBitZero left = sAppendBit left false := by
  simp only [sAppendBitZero, sAppendBit, Bool.false_eq_true, if_false]

/-- The first half of a byte function: the rest of the cursor byte is filled with the bits `v`, the cursor moves on and the
buffer is sent if it is full. -/
theorem fill_run {z : Bool} {n : Nat} {left : List Byte → List Byte → List Byte} (hleft : Leaves z left)
    {s : SStream} {bs : List Bool} (hs : SSt z n s bs) {x : Byte} {v : List Bool} (hv : v.length = 8 - s.st.currentBit)
    (hx1 : ∀ j, j < s.st.currentBit → x.getMsbD j = (s.st.buf.getD s.st.currentByte 0#8).getMsbD j)
    (hx2 : ∀ j, j < v.length → x.getMsbD (s.st.currentBit + j) = v[j]?.getD false) :
    ∃ s', pushIfRequired left { s with st := { s.st with buf := s.st.buf.set s.st.currentByte x, currentByte := s.st.currentByte + 1 } } =
        .ok ((), s') ∧ SMid z n s' (bs ++ v) ∧ s'.st.currentByte < n ∧ s'.st.currentBit = s.st.currentBit := by
  obtain ⟨tail, hbs, hh, hl⟩ := hs.held
  have hb := hs.bit
  have hby := hs.byte
  have hh' := hh.put (c := s.st.currentBit) hl hby (v := v) (by omega) hx1 hx2 (by intro _ j h1 h2; omega)
  refine push_run hleft (by omega) (s := { s with st := { s.st with buf := s.st.buf.set s.st.currentByte x, currentByte := s.st.currentByte + 1 } })
    ⟨hs.count, by simp only []; omega, hs.whole, tail ++ v, by rw [← List.append_assoc, hbs], hh', ?_⟩
  rw [List.length_append, hl, hv]
  simp only [BitStream.pos]; omega

/-- The second half: the first bits of the cursor byte are written. -/
theorem begin_run {z : Bool} {n : Nat} {s : SStream} {bs : List Bool} (hs : SMid z n s bs) (hlt : s.st.currentByte < n)
    {x : Byte} {v : List Bool} {c : Nat} (hc : c < 8) (hv : v.length = c)
    (hx2 : ∀ j, j < v.length → x.getMsbD j = v[j]?.getD false)
    (hx3 : z = true → (∀ j, j < 8 → (s.st.buf.getD s.st.currentByte 0#8).getMsbD j = false) → ∀ j, v.length ≤ j → j < 8 → x.getMsbD j = false) :
    SSt z n { s with st := { s.st with buf := s.st.buf.set s.st.currentByte x, currentBit := c } } (bs ++ v) := by
  obtain ⟨tail, hbs, hh, hl⟩ := hs.held
  refine ⟨hs.count, hc, hlt, hs.whole, tail ++ v, by rw [← List.append_assoc, hbs], ?_, ?_⟩
  · refine hh.put (c := 0) (by omega) hlt (by omega) (by intro j hj; omega) (by intro j hj; rw [Nat.zero_add]; exact hx2 j hj) ?_
    intro hz j h1 h2
    exact hx3 hz (fun j hj => hh.old (c := 0) (by omega) hlt hz (by omega) hj) j (by omega) h2
  · rw [List.length_append, hl, hv]; rfl

theorem byteBits_take_drop_getD {v : Byte} {c j : Nat} : ((byteBits v).drop c)[j]?.getD false = v.getMsbD (c + j) := by
  rw [List.getElem?_drop, byteBits_getD]

theorem byteBits_take_getD {v : Byte} {c j : Nat} (h : j < c) : ((byteBits v).take c)[j]?.getD false = v.getMsbD j := by
  rw [List.getElem?_take, if_pos h, byteBits_getD]

theorem andOr_run {k : Nat} {m x : Byte} {s : BitStream} (h : k < s.buf.length) {β : Type} (f : Unit → M β) :
    (bufAnd k m >>= fun _ => bufOr k x >>= f) s =
      f () { s with buf := s.buf.set k (s.buf.getD k 0#8 &&& m ||| x) } := by
  rw [bufAnd_bind h, bufOr_bind (by simpa using h)]
  simp [h]

theorem andOr_run' {k : Nat} {m x : Byte} {s : BitStream} (h : k < s.buf.length) :
    (bufAnd k m >>= fun _ => bufOr k x) s =
      .ok ((), { s with buf := s.buf.set k (s.buf.getD k 0#8 &&& m ||| x) }) := by
  rw [bufAnd_bind h, bufOr_run (by simpa using h)]
  simp [h]

theorem sAppendByte_appends {z : Bool} {n : Nat} {left : List Byte → List Byte → List Byte} (hleft : Leaves z left) (v : Byte)
    (neg : Bool) (pos : Nat) : SAppendsAt z n pos (sAppendByte left v neg) () (byteBits (negB neg v)) := by
  intro s bs hs _
  have hb := hs.bit
  have hby := hs.byte
  have hcap : n ≤ s.st.buf.length := by obtain ⟨_, _, h, _⟩ := hs.held; exact h.cap
  have hk : s.st.currentByte < s.st.buf.length := by omega
  have hm := masksb_get (n := 8 - s.st.currentBit) (by omega)
  rw [sAppendByte, liftS_getS_bind]
  rw [liftS_tbl_bind hm]
  rw [show (if neg = true then ~~~v else v) = negB neg v from rfl]
  generalize negB neg v = v
  rw [liftS_bind_ok (a := ()) (by rw [andOr_run hk]; rfl)]
  obtain ⟨s1, hr1, hm1, hlt1, hb1⟩ := fill_run (x := s.st.buf.getD s.st.currentByte 0#8 &&& ~~~(BitVec.ofNat 8 (2 ^ (8 - s.st.currentBit) - 1)) ||| v >>> s.st.currentBit)
    (v := (byteBits v).take (8 - s.st.currentBit)) hleft hs (by simp)
    (by intro j hj; rw [byte_hi rfl (by omega) (by omega), if_pos hj])
    (by intro j hj
        rw [List.length_take, byteBits_length] at hj
        rw [byte_hi rfl (by omega) (by omega), if_neg (by omega), byteBits_take_getD (by omega)]; congr 1; omega)
  rw [sbind_ok hr1]
  have hcap1 : n ≤ s1.st.buf.length := by obtain ⟨_, _, h, _⟩ := hm1.held; exact h.cap
  have hc1 := hm1.count
  have hass : liftS assertInBounds s1 = .ok ((), s1) :=
    liftS_ok (t := s1.st) (assertInBounds_run (by simp only [BitStream.pos]; omega))
  rw [sbind_ok hass]
  by_cases h0 : s.st.currentBit = 0
  · refine ⟨s1, by simp only [h0, ne_eq, not_true_eq_false, if_false]; rfl, ?_⟩
    have := hm1.done hlt1 (by omega)
    rw [h0, List.take_of_length_le (by simp)] at this
    exact this
  · simp only [ne_eq, h0, not_false_eq_true, if_true]
    rw [liftS_getS_bind, BitVec.not_not, liftS_ok (a := ()) (andOr_run' (by omega))]
    refine ⟨_, rfl, ?_⟩
    have := begin_run hm1 hlt1 (x := s1.st.buf.getD s1.st.currentByte 0#8 &&& BitVec.ofNat 8 (2 ^ (8 - s.st.currentBit) - 1) ||| v <<< (8 - s.st.currentBit))
      (v := (byteBits v).drop (8 - s.st.currentBit)) (c := s.st.currentBit) hb (by simp; omega)
      (by intro j hj
          rw [List.length_drop, byteBits_length] at hj
          rw [byte_lo rfl (by omega) (by omega), if_pos (by omega), byteBits_take_drop_getD]; congr 1; omega)
      (by intro hz hold j h1 h2
          rw [List.length_drop, byteBits_length] at h1
          rw [byte_lo rfl (by omega) (by omega), if_neg (by omega), hold j h2])
    rw [List.append_assoc, List.take_append_drop] at this
    rw [← hb1] at this ⊢
    exact this

theorem sAppendByte0_appends {z : Bool} {n : Nat} {left : List Byte → List Byte → List Byte} (hleft : Leaves z left) (v : Byte)
    (pos : Nat) : SAppendsAt z n pos (sAppendByte0 left v) true (byteBits v) := by
  intro s bs hs _
  have hb := hs.bit
  have hby := hs.byte
  have hcap : n ≤ s.st.buf.length := by obtain ⟨_, _, h, _⟩ := hs.held; exact h.cap
  have hk : s.st.currentByte < s.st.buf.length := by omega
  have hm := masksb_get (n := 8 - s.st.currentBit) (by omega)
  rw [sAppendByte0, liftS_getS_bind]
  rw [liftS_tbl_bind hm]
  rw [liftS_bind_ok (a := ()) (by rw [andOr_run hk]; rfl)]
  obtain ⟨s1, hr1, hm1, hlt1, hb1⟩ := fill_run (x := s.st.buf.getD s.st.currentByte 0#8 &&& ~~~(BitVec.ofNat 8 (2 ^ (8 - s.st.currentBit) - 1)) ||| v >>> s.st.currentBit)
    (v := (byteBits v).take (8 - s.st.currentBit)) hleft hs (by simp)
    (by intro j hj; rw [byte_hi rfl (by omega) (by omega), if_pos hj])
    (by intro j hj
        rw [List.length_take, byteBits_length] at hj
        rw [byte_hi rfl (by omega) (by omega), if_neg (by omega), byteBits_take_getD (by omega)]; congr 1; omega)
  rw [sbind_ok hr1]
  have hcap1 : n ≤ s1.st.buf.length := by obtain ⟨_, _, h, _⟩ := hm1.held; exact h.cap
  have hc1 := hm1.count
  by_cases h0 : s.st.currentBit = 0
  · refine ⟨s1, by simp only [h0, ne_eq, not_true_eq_false, if_false]; rfl, ?_⟩
    have := hm1.done hlt1 (by omega)
    rw [h0, List.take_of_length_le (by simp)] at this
    exact this
  · simp only [ne_eq, h0, not_false_eq_true, if_true]
    rw [liftS_getS_bind, BitVec.not_not, if_neg (by omega), liftS_bind_ok (a := ()) (andOr_run' (by omega))]
    refine ⟨_, rfl, ?_⟩
    have := begin_run hm1 hlt1 (x := s1.st.buf.getD s1.st.currentByte 0#8 &&& BitVec.ofNat 8 (2 ^ (8 - s.st.currentBit) - 1) ||| v <<< (8 - s.st.currentBit))
      (v := (byteBits v).drop (8 - s.st.currentBit)) (c := s.st.currentBit) hb (by simp; omega)
      (by intro j hj
          rw [List.length_drop, byteBits_length] at hj
          rw [byte_lo rfl (by omega) (by omega), if_pos (by omega), byteBits_take_drop_getD]; congr 1; omega)
      (by intro hz hold j h1 h2
          rw [List.length_drop, byteBits_length] at h1
          rw [byte_lo rfl (by omega) (by omega), if_neg (by omega), hold j h2])
    rw [List.append_assoc, List.take_append_drop] at this
    rw [← hb1] at this ⊢
    exact this

theorem sAppendPartialByte_appends {z : Bool} {n : Nat} {left : List Byte → List Byte → List Byte} (hleft : Leaves z left) {v : Byte}
    {k : Nat} {neg : Bool} (hk0 : 0 < k) (hk8 : k < 8) (hv : neg = true ∨ v.toNat < 2 ^ k) (pos : Nat)
    (hpos : z = true ∨ pos % 8 + k ≤ 8) :
    SAppendsAt z n pos (sAppendPartialByte left v k neg) () (bitsMsb k (negP neg k v).toNat) := by
  intro s bs hs hbl
  have hb := hs.bit
  have hby := hs.byte
  have hmod := hs.pos_mod8
  rw [hbl] at hmod
  have hcap : n ≤ s.st.buf.length := by obtain ⟨_, _, h, _⟩ := hs.held; exact h.cap
  have hk : s.st.currentByte < s.st.buf.length := by omega
  have hm := masksb_get (n := 8 - s.st.currentBit) (by omega)
  have hm0 : masksb[if neg = true then k else 0]? = some (BitVec.ofNat 8 (2 ^ (if neg = true then k else 0) - 1)) :=
    masksb_get (by split <;> omega)
  have hvv : (if neg = true then BitVec.ofNat 8 (2 ^ (if neg = true then k else 0) - 1) &&& ~~~v else v) = negP neg k v := by
    cases neg <;> simp [negP]
  have hlt := negP_lt (neg := neg) (v := v) (n := k) (by omega) hv
  rw [sAppendPartialByte, liftS_getS_bind]
  simp only []
  rw [liftS_tbl_bind hm0, liftS_tbl_bind hm, hvv]
  generalize negP neg k v = v' at hlt ⊢
  by_cases ht : s.st.currentBit + k ≤ 8
  · rw [if_pos ht]
    obtain ⟨tail, hbs, hh, hl⟩ := hs.held
    have hh' := hh.put (c := s.st.currentBit) hl hby (v := bitsMsb k v'.toNat)
      (x := s.st.buf.getD s.st.currentByte 0#8 &&& (~~~(BitVec.ofNat 8 (2 ^ (8 - s.st.currentBit) - 1)) ||| BitVec.ofNat 8 (2 ^ (8 - (s.st.currentBit + k)) - 1)) ||| v' <<< (8 - (s.st.currentBit + k)))
      (by simpa using ht)
      (by intro j hj; rw [part_one ht hlt (by omega), if_neg (by omega)])
      (by intro j hj
          rw [bitsMsb_length] at hj
          rw [part_one ht hlt (by omega), if_pos (by omega), bitsMsb_byte_getD (by omega)]
          simp [hj])
      (by intro hz j h1 h2
          rw [bitsMsb_length] at h1
          rw [part_one ht hlt h2, if_neg (by omega)]
          exact hh.old (c := s.st.currentBit) hl hby hz (by omega) h2)
    have hrun : (do
        let mask2 ← liftS (tblGet masksb (8 - (s.st.currentBit + k)))
        liftS (do
          bufAnd s.st.currentByte (~~~(BitVec.ofNat 8 (2 ^ (8 - s.st.currentBit) - 1)) ||| mask2)
          bufOr s.st.currentByte (v' <<< (8 - (s.st.currentBit + k)))
          modS fun s => { s with currentBit := s.currentBit + k })
        let s ← liftS getS
        if s.currentBit = 8 then do
          liftS (modS fun s => { s with currentBit := 0, currentByte := s.currentByte + 1 })
          pushIfRequired left
        else pure () : SM Unit) s =
        if s.st.currentBit + k = 8 then pushIfRequired left
          { s with st := { s.st with buf := s.st.buf.set s.st.currentByte (s.st.buf.getD s.st.currentByte 0#8 &&& (~~~(BitVec.ofNat 8 (2 ^ (8 - s.st.currentBit) - 1)) ||| BitVec.ofNat 8 (2 ^ (8 - (s.st.currentBit + k)) - 1)) ||| v' <<< (8 - (s.st.currentBit + k))), currentByte := s.st.currentByte + 1, currentBit := 0 } }
        else .ok ((), { s with st := { s.st with buf := s.st.buf.set s.st.currentByte (s.st.buf.getD s.st.currentByte 0#8 &&& (~~~(BitVec.ofNat 8 (2 ^ (8 - s.st.currentBit) - 1)) ||| BitVec.ofNat 8 (2 ^ (8 - (s.st.currentBit + k)) - 1)) ||| v' <<< (8 - (s.st.currentBit + k))), currentBit := s.st.currentBit + k } }) := by
      rw [liftS_tbl_bind (masksb_get (n := 8 - (s.st.currentBit + k)) (by omega)),
        liftS_bind_ok (a := ()) (by rw [andOr_run hk]; rfl), liftS_getS_bind]
      split
      · rfl
      · rfl
    by_cases h8 : s.st.currentBit + k = 8
    · obtain ⟨s1, hr1, hm1, hlt1, hb1⟩ := push_run (z := z) (n := n) hleft (by omega)
        (s := { s with st := { s.st with buf := s.st.buf.set s.st.currentByte (s.st.buf.getD s.st.currentByte 0#8 &&& (~~~(BitVec.ofNat 8 (2 ^ (8 - s.st.currentBit) - 1)) ||| BitVec.ofNat 8 (2 ^ (8 - (s.st.currentBit + k)) - 1)) ||| v' <<< (8 - (s.st.currentBit + k))), currentByte := s.st.currentByte + 1, currentBit := 0 } })
        (bs := bs ++ bitsMsb k v'.toNat)
        ⟨hs.count, by simp only []; omega, hs.whole, _, by rw [← List.append_assoc, hbs], hh', by
          rw [List.length_append, hl, bitsMsb_length]; simp only [BitStream.pos]; omega⟩
      have hd := hm1.done hlt1 hb1
      rw [if_pos h8, hr1] at hrun
      exact ⟨s1, by rw [sbind_ok hrun, assert_run hd], hd⟩
    · rw [if_neg h8] at hrun
      have hd : SSt z n { s with st := { s.st with buf := s.st.buf.set s.st.currentByte (s.st.buf.getD s.st.currentByte 0#8 &&& (~~~(BitVec.ofNat 8 (2 ^ (8 - s.st.currentBit) - 1)) ||| BitVec.ofNat 8 (2 ^ (8 - (s.st.currentBit + k)) - 1)) ||| v' <<< (8 - (s.st.currentBit + k))), currentBit := s.st.currentBit + k } } (bs ++ bitsMsb k v'.toNat) :=
        ⟨hs.count, by simp only []; omega, hby, hs.whole, _, by rw [← List.append_assoc, hbs], hh', by
          rw [List.length_append, hl, bitsMsb_length]; simp only [BitStream.pos]; omega⟩
      exact ⟨_, by rw [sbind_ok hrun, assert_run hd], hd⟩
  · rw [if_neg ht]
    have hz : z = true := by rcases hpos with h | h; · exact h
                             · omega
    have hcr : 8 < s.st.currentBit + k := by omega
    have hbv : bitsMsb k v'.toNat = (bitsMsb k v'.toNat).take (8 - s.st.currentBit) ++ (bitsMsb k v'.toNat).drop (8 - s.st.currentBit) :=
      (List.take_append_drop ..).symm
    obtain ⟨s1, hr1, hm1, hlt1, hb1⟩ := fill_run (x := s.st.buf.getD s.st.currentByte 0#8 &&& ~~~(BitVec.ofNat 8 (2 ^ (8 - s.st.currentBit) - 1)) ||| v' >>> (s.st.currentBit + k - 8))
      (v := (bitsMsb k v'.toNat).take (8 - s.st.currentBit)) hleft hs (by simp; omega)
      (by intro j hj; rw [part_hi hb hk8 hcr hlt (by omega), if_pos hj])
      (by intro j hj
          rw [List.length_take, bitsMsb_length] at hj
          rw [part_hi hb hk8 hcr hlt (by omega), if_neg (by omega), List.getElem?_take, if_pos (by omega), bitsMsb_byte_getD (by omega)]
          have : j < k := by omega
          simp [this])
    have hcap1 : n ≤ s1.st.buf.length := by obtain ⟨_, _, h, _⟩ := hm1.held; exact h.cap
    have hd := begin_run hm1 hlt1 (x := s1.st.buf.getD s1.st.currentByte 0#8 &&& ~~~(BitVec.ofNat 8 (2 ^ (8 - (s.st.currentBit + k - 8)) - 1)) ||| v' <<< (8 - (s.st.currentBit + k - 8)))
      (v := (bitsMsb k v'.toNat).drop (8 - s.st.currentBit)) (c := s.st.currentBit + k - 8) (by omega) (by simp; omega)
      (by intro j hj
          rw [List.length_drop, bitsMsb_length] at hj
          obtain ⟨_, _, h, hl1⟩ := hm1.held
          rw [part_lo (by omega) (by omega), if_pos (by omega), h.old (c := 0) (by omega) hlt1 hz (by omega) (by omega), Bool.false_or,
            List.getElem?_drop, bitsMsb_byte_getD (by omega)]
          have : 8 - s.st.currentBit + j < k := by omega
          simp only [this, decide_true, Bool.true_and]
          congr 1; omega)
      (by intro _ hold j h1 h2
          rw [List.length_drop, bitsMsb_length] at h1
          rw [part_lo (by omega) h2, if_neg (by omega)])
    rw [List.append_assoc, ← hbv] at hd
    refine ⟨_, ?_, hd⟩
    have hrun : (do
        liftS (do
          bufAnd s.st.currentByte (~~~(BitVec.ofNat 8 (2 ^ (8 - s.st.currentBit) - 1)))
          bufOr s.st.currentByte (v' >>> (s.st.currentBit + k - 8))
          incByte)
        pushIfRequired left
        let mb2 ← liftS (tblGet masksb (8 - (s.st.currentBit + k - 8)))
        let s1 ← liftS getS
        liftS (do
          bufAnd s1.currentByte (~~~mb2)
          bufOr s1.currentByte (v' <<< (8 - (s.st.currentBit + k - 8)))
          modS fun t => { t with currentBit := s.st.currentBit + k - 8 }) : SM Unit) s =
        .ok ((), { s1 with st := { s1.st with buf := s1.st.buf.set s1.st.currentByte (s1.st.buf.getD s1.st.currentByte 0#8 &&& ~~~(BitVec.ofNat 8 (2 ^ (8 - (s.st.currentBit + k - 8)) - 1)) ||| v' <<< (8 - (s.st.currentBit + k - 8))), currentBit := s.st.currentBit + k - 8 } }) := by
      rw [liftS_bind_ok (a := ()) (by rw [andOr_run hk]; rfl), sbind_ok hr1,
        liftS_tbl_bind (masksb_get (n := 8 - (s.st.currentBit + k - 8)) (by omega)), liftS_getS_bind,
        liftS_ok (a := ()) (by rw [andOr_run (by omega)]; rfl)]
    rw [sbind_ok hrun, assert_run hd]

theorem sAppendNBitZero_appends {n : Nat} {left : List Byte → List Byte → List Byte} (hleft : Leaves true left) (k pos : Nat)
    (hk : pos % (8 * n) + k < 2 * (8 * n)) :
    SAppendsAt true n pos (sAppendNBitZero left k) () (List.replicate k false) := by
  intro s bs hs hbl
  have hb := hs.bit
  have hby := hs.byte
  have hc := hs.count
  have hmod := hs.pos_mod
  rw [hbl] at hmod
  rw [hmod] at hk
  simp only [BitStream.pos] at hk
  obtain ⟨tail, hbs, hh, hl⟩ := hs.held
  rw [sAppendNBitZero, liftS_getS_bind]
  have e1 : ((s.st.currentBit : Int) + (k : Int)).tmod 8 = ((s.st.currentBit + k) % 8 : Nat) := by
    rw [← Int.natCast_add]; rfl
  have e2 : ((s.st.currentBit : Int) + (k : Int)).tdiv 8 = ((s.st.currentBit + k) / 8 : Nat) := by
    rw [← Int.natCast_add]; rfl
  rw [e1, e2, if_neg (by omega)]
  have hext : ∀ m, tail.length + m ≤ 8 * n → Hold true s.st.buf n (tail ++ List.replicate m false) := by
    intro m hm
    refine ⟨hh.cap, by simpa using hm, ?_, ?_⟩
    · intro i hi
      rw [List.length_append, List.length_replicate] at hi
      rw [List.getElem?_append]
      by_cases h1 : i < tail.length
      · rw [if_pos h1, hh.bits i h1]
      · rw [if_neg h1, List.getElem?_replicate, if_pos (by omega), hh.rest rfl i (by omega) (by omega)]; rfl
    · intro _ i h1 h2
      rw [List.length_append] at h1
      exact hh.rest rfl i (by omega) h2
  by_cases h1 : s.st.currentByte + (s.st.currentBit + k) / 8 ≤ n
  · rw [if_pos (by omega), if_neg (by omega), liftS_modS_bind]
    by_cases h2 : s.st.currentByte + (s.st.currentBit + k) / 8 = n
    · -- the buffer is full
      have hm1 : k = (8 * n - tail.length) + (s.st.currentBit + k) % 8 := by
        simp only [BitStream.pos] at hl; omega
      obtain ⟨s1, hr1, hmid, hlt1, hb1⟩ := push_run (z := true) (n := n) hleft (by omega)
        (s := { s with st := { s.st with currentBit := (((s.st.currentBit + k) % 8 : Nat) : Int).toNat, currentByte := ((s.st.currentByte : Int) + ((s.st.currentBit + k) / 8 : Nat)).toNat } })
        (bs := bs ++ List.replicate (8 * n - tail.length) false)
        ⟨hc, by simp only []; omega, hs.whole, _, by rw [← List.append_assoc, hbs], hext _ (by have := hh.room; omega), by
          rw [List.length_append, List.length_replicate]; have := hh.room; simp only []; omega⟩
      refine ⟨s1, hr1, ?_⟩
      obtain ⟨t1, ht1, hh1, hl1⟩ := hmid.held
      simp only [Int.toNat_natCast] at hb1
      refine ⟨hmid.count, by omega, hlt1, hmid.whole, t1 ++ List.replicate ((s.st.currentBit + k) % 8) false, ?_, ⟨hh1.cap, ?_, ?_, ?_⟩, ?_⟩
      · rw [← List.append_assoc, ht1, List.append_assoc, List.replicate_append_replicate, ← hm1]
      · rw [List.length_append, List.length_replicate]; omega
      · intro i hi
        rw [List.length_append, List.length_replicate] at hi
        rw [List.getElem?_append]
        by_cases h1 : i < t1.length
        · rw [if_pos h1, hh1.bits i h1]
        · rw [if_neg h1, List.getElem?_replicate, if_pos (by omega), hh1.rest rfl i (by omega) (by omega)]; rfl
      · intro _ i h1 h2
        rw [List.length_append] at h1
        exact hh1.rest rfl i (by omega) h2
      · rw [List.length_append, List.length_replicate]; simp only [BitStream.pos]; omega
    · refine ⟨{ s with st := { s.st with currentBit := (((s.st.currentBit + k) % 8 : Nat) : Int).toNat, currentByte := ((s.st.currentByte : Int) + ((s.st.currentBit + k) / 8 : Nat)).toNat } },
        by rw [pushIfRequired, if_neg (by simp only []; omega)], ⟨hc, by simp only []; omega, by simp only []; omega, hs.whole, _, by rw [← List.append_assoc, hbs], hext k (by simp only [BitStream.pos] at hl; omega), ?_⟩⟩
      rw [List.length_append, List.length_replicate, hl]; simp only [BitStream.pos]; omega
  · rw [if_neg (by omega), liftS_modS_bind]
    -- the buffer is full and more follows
    have hroom := hh.room
    obtain ⟨s1, hr1, hmid, hlt1, hb1⟩ := push_run (z := true) (n := n) hleft (by omega)
      (s := { s with st := { s.st with currentBit := (((s.st.currentBit + k) % 8 : Nat) : Int).toNat, currentByte := s.st.count } })
      (bs := bs ++ List.replicate (8 * n - tail.length) false)
      ⟨hc, by simp only []; omega, hs.whole, _, by rw [← List.append_assoc, hbs], hext _ (by omega), by
        rw [List.length_append, List.length_replicate]; simp only []; omega⟩
    have hs1 : s1.st.currentByte = 0 := by
      rw [pushIfRequired, if_pos rfl] at hr1
      have := (Prod.mk.inj (Res.ok.inj hr1)).2
      rw [← this]
    obtain ⟨t1, ht1, hh1, hl1⟩ := hmid.held
    have ht0 : t1 = [] := List.eq_nil_of_length_eq_zero (by omega)
    subst ht0
    rw [sbind_ok hr1]
    simp only [Int.toNat_natCast] at hb1
    refine ⟨_, rfl, ⟨hmid.count, by simp only []; omega, by simp only []; omega, hmid.whole, List.replicate (k - (8 * n - tail.length)) false, ?_, ⟨hh1.cap, ?_, ?_, ?_⟩, ?_⟩⟩
    · rw [List.append_nil] at ht1
      simp only []
      rw [ht1, List.append_assoc, List.replicate_append_replicate]
      congr 2; simp only [BitStream.pos] at hl; omega
    · rw [List.length_replicate]; simp only [BitStream.pos] at hl; omega
    · intro i hi
      rw [List.length_replicate] at hi
      simp only []
      rw [List.getElem?_replicate, if_pos hi, hh1.rest rfl i (by simp) (by simp only [BitStream.pos] at hl; omega)]; rfl
    · intro _ i h1 h2
      exact hh1.rest rfl i (by simp) h2
    · rw [List.length_replicate]; simp only [BitStream.pos] at hl ⊢; omega

end Asn1
