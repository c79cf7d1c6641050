import Verif.Model.Gen
/-!
# Specification: several messages in one stream
-/
namespace Asn1

/-- The caller encodes a list of values, each with the function of its type, into one stream, and stops at a failure. -/
def encodeMessages : List (Ty × Val) → M Bool
  | [] => pure true
  | (t, v) :: ms => do
    let ret ← encodeType t v true
    if ret then encodeMessages ms else pure false

/-- The caller decodes one value of each type in turn, and stops at a failure. -/
def decodeMessages : List Ty → M (Bool × List Val)
  | [] => pure (true, [])
  | t :: ts => do
    let p ← decodeType t
    if p.1 then do
      let q ← decodeMessages ts
      pure (q.1, p.2 :: q.2)
    else pure (false, [])

end Asn1
