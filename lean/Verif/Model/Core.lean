/-!
# Core of the model: outcomes, memory, the bit stream

Models the declarations of `/repo/asn1crt/asn1crt.h` that the run-time library is built on.
-/
namespace Asn1

/-- Outcome of running a piece of C code.
`ok a`  : the code ran to completion and produced `a`;
`ub`    : the code executed undefined behaviour (access outside the object, signed overflow,
          shift by a negative or too large count);
`abort` : an `assert` failed (the model is the build without `NDEBUG`). -/
inductive Res (α : Type) where
  | ok (a : α)
  | ub
  | abort
  deriving DecidableEq, Repr

/-- `byte`, asn1crt/asn1crt.h:95 (`typedef uint8_t byte`). -/
abbrev Byte := BitVec 8

/-- `asn1SccUint` for `WORD_SIZE == 8`, asn1crt/asn1crt.h:103-106. -/
abbrev U64 := BitVec 64

/-- `asn1SccUint32`, asn1crt/asn1crt.h:98. -/
abbrev U32 := BitVec 32

/-- `BitStream`, asn1crt/asn1crt.h:148-160 (struct with `buf`, `count`, `currentByte`, `currentBit`).
`buf` is the whole C object the pointer points into, so `buf.length` is the size of the allocation;
`count` is the size the stream was told about.
Simplifications: positions are natural numbers without an upper limit (C uses `long`/`int`);
the push/fetch callback parameters are left out, they are unused without `ASN1SCC_STREAMING`. -/
structure BitStream where
  buf : List Byte
  count : Nat
  currentByte : Nat
  currentBit : Nat
  deriving DecidableEq, Repr

/-- A C function working on one bit stream: state in, outcome and new state out.
(Not a C definition: this is how functions taking `BitStream* pBitStrm` are represented.) -/
def M (α : Type) : Type := BitStream → Res (α × BitStream)

instance : Monad M where
  pure a := fun s => .ok (a, s)
  bind x f := fun s =>
    match x s with
    | .ok (a, s') => f a s'
    | .ub => .ub
    | .abort => .abort

/-- Access to the stream structure (`pBitStrm->...`). -/
def getS : M BitStream := fun s => .ok (s, s)

/-- Assignment to fields of the stream structure. -/
def modS (f : BitStream → BitStream) : M Unit := fun s => .ok ((), f s)

/-- Undefined behaviour. -/
def mUb {α : Type} : M α := fun _ => .ub

/-- A failed assertion. -/
def mAbort {α : Type} : M α := fun _ => .abort

/-- `pBitStrm->buf[i]` as an rvalue: undefined outside the object. -/
def bufGet (i : Nat) : M Byte := fun s =>
  match s.buf[i]? with
  | some b => .ok (b, s)
  | none => .ub

/-- `pBitStrm->buf[i] = b`: undefined outside the object. -/
def bufSet (i : Nat) (b : Byte) : M Unit := fun s =>
  if i < s.buf.length then .ok ((), { s with buf := s.buf.set i b }) else .ub

/-- `pBitStrm->buf[i] &= m`. -/
def bufAnd (i : Nat) (m : Byte) : M Unit := do
  let b ← bufGet i
  bufSet i (b &&& m)

/-- `pBitStrm->buf[i] |= x`. -/
def bufOr (i : Nat) (x : Byte) : M Unit := do
  let b ← bufGet i
  bufSet i (b ||| x)

/-- `arr[i]` for an array that is only read (a constant table or a `const byte*` argument):
undefined outside the array. -/
def tblGet {α : Type} (t : List α) (i : Nat) : M α := fun s =>
  match t[i]? with
  | some b => .ok (b, s)
  | none => .ub

/-- `assert(c)`. -/
def assertC (c : Bool) : M Unit := fun s => if c then .ok ((), s) else .abort

end Asn1
