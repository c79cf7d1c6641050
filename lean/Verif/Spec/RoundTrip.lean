import Verif.Spec.Stream
/-!
# Specification: an encoder and a decoder fit together
-/
namespace Asn1

/-- Encoding with `enc` and decoding with `dec` gives back `v`, in exactly `len` bits:
* from every encoder state with `len` bits of room `enc` completes, returns `e`, and moves the cursor by `len`,
  keeping everything written before and touching nothing outside the buffer;
* every reader that stands where the encoder started, over any buffer that agrees with the result on these
  `len` bits (whatever comes before or follows), gets `TRUE` and `v`, stops where the encoder stopped, and
  leaves the buffer alone. -/
def RoundTrip {ε α : Type} (enc : M ε) (e : ε) (dec : M (Bool × α)) (v : α) (len : Nat) : Prop :=
  ∀ s bs, EncSt s bs → bs.length + len ≤ 8 * s.count →
    ∃ s', enc s = .ok (e, s') ∧ s'.pos = s.pos + len ∧
      (∀ i, i < s.pos → bitAt s'.buf i = bitAt s.buf i) ∧ Frame s s' ∧
      ∀ t, Wf t → t.pos = s.pos → s'.pos ≤ 8 * t.count →
        (∀ i, s.pos ≤ i → i < s'.pos → bitAt t.buf i = bitAt s'.buf i) →
        ∃ t', dec t = .ok ((true, v), t') ∧ t'.pos = s'.pos ∧ t'.buf = t.buf ∧ t'.count = t.count

/-- Every input that ends before the `len` bits of the encoding are complete is rejected, with one readable
byte behind the input: a reader that stands where the encoder started, over a buffer that agrees with the
encoding as far as it goes, but ends before bit `s.pos + len`, gets `FALSE`. -/
def RejectsTruncated {ε α : Type} (enc : M ε) (e : ε) (dec : M (Bool × α)) (len : Nat) : Prop :=
  ∀ s bs, EncSt s bs → bs.length + len ≤ 8 * s.count →
    ∃ s', enc s = .ok (e, s') ∧
      ∀ t, Wf t → t.pos = s.pos → t.pos ≤ 8 * t.count → 8 * t.count < s.pos + len → t.count + 1 ≤ t.buf.length →
        (∀ i, s.pos ≤ i → i < 8 * t.count → bitAt t.buf i = bitAt s'.buf i) →
        ∃ a t', dec t = .ok ((false, a), t') ∧ t'.buf = t.buf

/-- The encoder produces exactly the bits `code`, the decoder gives `v` back, and refuses shorter inputs. -/
def Codec {α : Type} (enc : M Unit) (dec : M (Bool × α)) (v : α) (code : List Bool) : Prop :=
  Appends enc () code ∧ RoundTrip enc () dec v code.length ∧ RejectsTruncated enc () dec code.length

end Asn1
