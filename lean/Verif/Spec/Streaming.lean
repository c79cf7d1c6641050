import Verif.Model.Streaming
import Verif.Spec.Bits
/-!
# Specification vocabulary: streaming
-/
namespace Asn1

/-- The bits a call asks for. -/
def Op.requested : Op → List Bool
  | .bit v => [v]
  | .bitOne => [true]
  | .bitZero => [false]
  | .zeros n => List.replicate n.toNat false
  | .byte v neg => negBits neg (byteBits v)
  | .byte0 v => byteBits v
  | .part v n neg => negBits neg (bitsMsb n v.toNat)
  | .octets arr n => bytesBits (arr.take n)

/-- The calls that work with a buffer of `n` bytes when `pos` bits were requested before. `z`: `pushData` clears the buffer.
* A partial byte has 1 to 7 bits and no bit outside them. If it is cut by a byte boundary, the buffer must be cleared.
* A row of zero bits needs a cleared buffer and must end before the end of the buffer that follows the current one.
* An octet string must fit into the current buffer. If it does not start at a byte boundary, the buffer must be cleared. -/
def Op.LegalAt (z : Bool) (n pos : Nat) : Op → Prop
  | .zeros k => 0 ≤ k ∧ z = true ∧ pos % (8 * n) + k.toNat < 2 * (8 * n)
  | .part v k neg => 0 < k ∧ k < 8 ∧ (neg = true ∨ v.toNat < 2 ^ k) ∧ (z = true ∨ pos % 8 + k ≤ 8)
  | .octets arr k => k ≤ arr.length ∧ pos % (8 * n) + 8 * k ≤ 8 * n ∧ (z = true ∨ pos % 8 = 0)
  | _ => True

/-- All calls of a row are legal, the first one when `pos` bits were requested before. -/
def LegalFrom (z : Bool) (n : Nat) : (pos : Nat) → List Op → Prop
  | _, [] => True
  | pos, o :: os => o.LegalAt z n pos ∧ LegalFrom z n (pos + o.requested.length) os

instance (z : Bool) (n pos : Nat) (o : Op) : Decidable (o.LegalAt z n pos) := by
  cases o <;> (unfold Op.LegalAt; infer_instance)

instance decLegalFrom (z : Bool) (n : Nat) : (pos : Nat) → (os : List Op) → Decidable (LegalFrom z n pos os)
  | _, [] => isTrue trivial
  | pos, o :: os => @instDecidableAnd _ _ _ (decLegalFrom z n (pos + o.requested.length) os)

/-- The calls a program makes, as long as all of them succeed. -/
def Prog.calls {α : Type} : Prog α → List Op
  | .op o k => o :: (k true).calls
  | _ => []

/-- How a program ends when all its calls succeed. -/
def Prog.result {α : Type} : Prog α → Res α
  | .done a => .ok a
  | .ub => .ub
  | .abort => .abort
  | .op _ k => (k true).result

/-- All bits a program asks for. -/
def Prog.requested {α : Type} (p : Prog α) : List Bool := p.calls.flatMap Op.requested

/-- What the receiver gets: everything handed to `pushData` and the bytes of the last, partly filled buffer. -/
def SStream.output (s : SStream) : List Byte := s.sent ++ s.st.buf.take (bitStreamGetLength s.st)

/-- The two builds end the same way, with the same result and the same output. -/
def SameOutcome {α : Type} : Res (α × BitStream) → Res (α × SStream) → Prop
  | .ok (a, t), .ok (b, s) => a = b ∧ s.output = t.buf.take (bitStreamGetLength t)
  | .ub, .ub => True
  | .abort, .abort => True
  | _, _ => False

/-- A `pushData` that leaves a buffer of the same size, and a cleared one if `z`. -/
def Leaves (z : Bool) (left : List Byte → List Byte → List Byte) : Prop :=
  (∀ sent buf, (left sent buf).length = buf.length) ∧
    (z = true → ∀ sent buf, left sent buf = List.replicate buf.length 0#8)

end Asn1
