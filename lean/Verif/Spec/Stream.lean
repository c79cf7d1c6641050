import Verif.Model.Core
import Verif.Spec.Bits

/-!
# Specification vocabulary: what it means to append to and to read from a bit stream
-/
namespace Asn1

/-- Absolute position of the cursor, in bits. -/
def BitStream.pos (s : BitStream) : Nat := 8 * s.currentByte + s.currentBit

/-- A stream structure that the API can produce: bit index in range, `count` within the object. -/
structure Wf (s : BitStream) : Prop where
  bit : s.currentBit < 8
  cap : s.count ≤ s.buf.length

/-- Nothing but the first `count` bytes and the cursor differs between `s` and `s'`. -/
structure Frame (s s' : BitStream) : Prop where
  count : s'.count = s.count
  len : s'.buf.length = s.buf.length
  tail : ∀ i, 8 * s.count ≤ i → bitAt s'.buf i = bitAt s.buf i

/-- `s` is an encoder state that has written exactly the bits `bs`: the cursor stands behind them, the
buffer begins with them and all later bits of the `count` bytes are still 0. -/
structure EncSt (s : BitStream) (bs : List Bool) : Prop where
  wf : Wf s
  pos : s.pos = bs.length
  room : bs.length ≤ 8 * s.count
  bits : ∀ i, i < 8 * s.count → bitAt s.buf i = bs[i]?.getD false

/-- `f` appends exactly the bits `w` and returns `a`: from every encoder state with enough room it
completes without undefined behaviour and without a failed assertion, keeps everything written before,
and touches nothing outside the `count` bytes. -/
def Appends {α : Type} (f : M α) (a : α) (w : List Bool) : Prop :=
  ∀ s bs, EncSt s bs → bs.length + w.length ≤ 8 * s.count →
    ∃ s', f s = .ok (a, s') ∧ EncSt s' (bs ++ w) ∧ Frame s s'

/-- `f` overwrites the bits at the cursor by `w` and returns `a`, whatever the buffer contains, and
changes no other bit. -/
def Writes {α : Type} (f : M α) (a : α) (w : List Bool) : Prop :=
  ∀ s, Wf s → s.pos + w.length ≤ 8 * s.count →
    ∃ s', f s = .ok (a, s') ∧ Wf s' ∧ s'.count = s.count ∧ s'.buf.length = s.buf.length ∧
      s'.pos = s.pos + w.length ∧
      ∀ i, bitAt s'.buf i =
        if s.pos ≤ i ∧ i < s.pos + w.length then w[i - s.pos]?.getD false else bitAt s.buf i

/-- `s` is a decoder state whose unread bits are exactly `rest`. -/
structure DecSt (s : BitStream) (rest : List Bool) : Prop where
  wf : Wf s
  pos : s.pos + rest.length = 8 * s.count
  bits : ∀ i, i < rest.length → bitAt s.buf (s.pos + i) = rest[i]?.getD false

/-- `f` reads exactly the bits `w` and returns `a`: from every decoder state whose unread bits begin with
`w` it completes, leaves exactly the bits behind `w` and changes nothing but the cursor. -/
def Reads {α : Type} (f : M α) (a : α) (w : List Bool) : Prop :=
  ∀ s rest, DecSt s (w ++ rest) →
    ∃ s', f s = .ok (a, s') ∧ DecSt s' rest ∧ s'.buf = s.buf ∧ s'.count = s.count

/-- One byte behind the `count` bytes may be read (the object is larger than `count`). -/
def Slack (s : BitStream) : Prop := s.count + 1 ≤ s.buf.length

/-- `f` reports failure on every proper prefix of the code word `w`. -/
def Short {α : Type} (f : M (Bool × α)) (w : List Bool) : Prop :=
  ∀ s rest, DecSt s rest → Slack s → rest <+: w → rest ≠ w →
    ∃ a s', f s = .ok ((false, a), s') ∧ s'.buf = s.buf ∧ s'.count = s.count

/-- `f` is safe on arbitrary input: from every state with the cursor inside the buffer (and one readable
byte behind it) it completes without undefined behaviour or failed assertion, changes nothing but the
cursor, and if it reports success the cursor is still inside the buffer. -/
def Safe {α : Type} (f : M (Bool × α)) : Prop :=
  ∀ s, Wf s → s.pos ≤ 8 * s.count → Slack s →
    ∃ r s', f s = .ok (r, s') ∧ s'.buf = s.buf ∧ s'.count = s.count ∧
      (r.1 = true → s'.currentBit < 8 ∧ s'.pos ≤ 8 * s.count ∧ s.pos ≤ s'.pos)

end Asn1
