import Verif.Model.StreamRead
import Verif.Spec.Stream
/-!
# Specification vocabulary: reading with streaming
-/
namespace Asn1

/-- Number of bits a call looks at. -/
def ROp.size : ROp → Nat
  | .bit => 1
  | .peek => 1
  | .byte => 8
  | .part n => n
  | .octets n => 8 * n

/-- The calls that work with a buffer of `n` bytes after `pos` bits of the message.
* A partial byte has 1 to 7 bits.
* A byte that does not start at a byte boundary does not start in the last byte of the buffer.
* An octet string lies inside the current buffer; if it does not start at a byte boundary, it ends before the last byte. -/
def ROp.LegalAt (n pos : Nat) : ROp → Prop
  | .part k => 0 < k ∧ k < 8
  | .byte => pos % 8 = 0 ∨ pos / 8 % n + 1 < n
  | .octets k => pos / 8 % n + k < n ∨ (pos % 8 = 0 ∧ pos / 8 % n + k ≤ n)
  | _ => True

/-- Every call of the program, when it reads the message from one buffer, is legal for a buffer of `n` bytes and stays inside
the message. -/
def RProg.LegalOn {α : Type} (n : Nat) : RProg α → BitStream → Prop
  | .op o k, t => o.LegalAt n t.pos ∧ t.pos + o.size ≤ 8 * t.count ∧
      match o.run t with
      | .ok (r, t') => (k r).LegalOn n t'
      | _ => True
  | _, _ => True

/-- The two builds end the same way and with the same result. -/
def SameAnswer {α : Type} : Res (α × BitStream) → Res (α × RStream) → Prop
  | .ok (a, _), .ok (b, _) => a = b
  | .ub, .ub => True
  | .abort, .abort => True
  | _, _ => False

end Asn1
