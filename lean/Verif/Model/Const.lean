import Verif.Model.Init
import Verif.Model.Valid
/-!
# C constants of value assignments

`<name> <Type> ::= <value>` becomes `const <type> <name> = <value>;` (BackendAst/GenerateFiles.fs:38-43, StgC/variables_c.stg:187-189).
Modelled is the object that this definition makes. `none`: the definition is not accepted by a C compiler (ISO C 6.7.9: an
initialiser may not provide a value for what is not in the object; an initialiser list does not begin with a comma). GCC only
warns about excess elements of a scalar, and drops them. Empty initialiser lists are accepted, as GCC, Clang and C23 do.
-/
namespace Asn1

mutual
/-- What C stores in an object, or the parts of it, for which the initialiser list has nothing (ISO C 6.7.9, 10 and 21): zeros.
Simplification: a union keeps no content here. -/
def zeroC : CTy → CVal
  | .int _ _ => .int 0
  | .bool _ => .bool false
  | .null => .null
  | .enum _ _ => .enum 0
  | .octets _ hi _ => .octets 0 (List.replicate hi 0#8)
  | .bits _ hi _ => .bits 0 (List.replicate ((hi + 7) / 8) 0#8)
  | .str _ hi _ _ => .str (List.replicate (hi + 1) 0#8)
  | .oid _ _ => .oid ⟨0, List.replicate 20 0#64⟩
  | .real _ => .real 0#64
  | .seq fs _ => .seq (zeroFieldsC fs)
  | .seqOf _ hi t _ => .seqOf 0 (List.replicate hi (zeroC t))
  | .choice _ _ => .choice 0 .null
  | .ref t _ _ => zeroC t
/-- The same for the components. -/
def zeroFieldsC : CFields → List (Bool × CVal)
  | .nil => []
  | .cons _ t rest => (false, zeroC t) :: zeroFieldsC rest
end

/-- `{ x, y, … }` for an array of `n` elements: what is not listed is zero; more than `n` are not accepted. -/
def constArr {α : Type} (n : Nat) (zero : α) (l : List α) : Option (List α) :=
  if l.length ≤ n then some (l ++ List.replicate (n - l.length) zero) else none

/-- `PrintBitOrOctetStringValue`, StgC/variables_c.stg:43-49: `{ n, { bytes } }`, without the count when the size is fixed. The
members of the C type are the count, absent when the size of the type itself is fixed (StgC/header_c.stg:175-212), and the array
of `len` octets. `sized`: the size of the type is fixed; `fixed`: that of the constrained reference is. Without the count printed,
the list of octets initialises the first member: the count if there is one, for which only one number is accepted. -/
def constBytes (sized fixed : Bool) (len : Nat) (bytes : List Byte) : Option (Int × List Byte) :=
  if fixed then
    if sized then (constArr len 0#8 bytes).map fun arr => (0, arr)
    else match bytes with
      | [b] => some (b.toNat, List.replicate len 0#8)
      | _ => none
  else (constArr len 0#8 bytes).map fun arr => ((bytes.length : Int), arr)

/-- `convertStringValue2TargetLangStringLiteral`, BackendAst/DAstVariables.fs:37-51, with StgC/variables_c.stg:13-34, as the C
compiler reads it: a quotation mark is doubled, which in C ends the literal and begins another one. Simplification: a backslash
begins an escape sequence in C; such values are taken as not accepted. `char arr[hi + 1] = "…"`: zeros follow (ISO C 6.7.9, 14). -/
def constStr (hi : Nat) (v : List Byte) : Option (List Byte) :=
  if 0x5C#8 ∈ v then none else constArr (hi + 1) 0#8 (v.filter (· ≠ 0x22#8))

/-- All of the list, or nothing if the C compiler rejects one of them. -/
def constAll (f : AV → Option CVal) : List AV → Option (List CVal)
  | [] => some []
  | x :: xs => do
    let w ← f x
    let ws ← constAll f xs
    some (w :: ws)

mutual
/-- `printValue`, BackendAst/DAstVariables.fs:53-174, for C (StgC/LangGeneric_c.fs:73-90, 101; StgC/variables_c.stg): the object that the
initialiser makes. `sz`: the size that constrained references impose (`t.ActualType`). References to values are printed by
value (DAstVariables.fs:161-168). Simplifications: a finite REAL is printed with the digits that C reads back as the same
number; time types are not modelled. -/
def constOf : CTy → Option (Nat × Nat) → AV → Option CVal
  | .int cls _, _, .int v => some (.int (storeInt cls v))
  | .bool _, _, .bool b => some (.bool b)
  | .null, _, .null => some .null
  | .enum _ _, _, .enum v => some (.enum v)
  | .octets lo hi _, sz, .octets l =>
    (constBytes (lo == hi) ((sz.getD (lo, hi)).1 == (sz.getD (lo, hi)).2) hi l).map fun p => .octets p.1 p.2
  | .octets lo hi _, sz, .bits l =>
    (constBytes (lo == hi) ((sz.getD (lo, hi)).1 == (sz.getD (lo, hi)).2) hi (packBits l)).map fun p => .octets p.1 p.2
  | .bits lo hi _, sz, .bits l =>
    (constBytes (lo == hi) ((sz.getD (lo, hi)).1 == (sz.getD (lo, hi)).2) ((hi + 7) / 8) (packBits l)).map fun p => .bits p.1 p.2
  | .bits lo hi _, sz, .octets l =>
    (constBytes (lo == hi) ((sz.getD (lo, hi)).1 == (sz.getD (lo, hi)).2) ((hi + 7) / 8) l).map fun p => .bits p.1 p.2
  | .str _ hi _ _, _, .str l => (constStr hi l).map .str
  | .oid _ _, _, .oid l => (constArr 20 0#64 l).map fun vs => .oid ⟨l.length, vs⟩
  | .real _, _, .real d => if (d >>> 52) &&& 0x7FF#64 = 0x7FF#64 then none else some (.real d)
  | .seq fs _, _, .seq l => do
    let (ws, printed) ← constFields fs l
    -- the comma before `.exist` (StgC/variables_c.stg:172) needs a component before it
    if printed == false && fs.anyBit then none else some (.seq ws)
  | .seqOf lo hi t _, sz, .seqOf l => do
    let ws ← constAll (constOf t none) l
    let arr ← constArr hi (zeroC t) ws
    -- `.nCount =` is printed when the size is not fixed; the type has it when its own size is not fixed
    some (.seqOf (if (sz.getD (lo, hi)).1 = (sz.getD (lo, hi)).2 then 0 else l.length) arr)
  | .choice alts _, _, .choice i x => (constAlt alts i x).map fun w => .choice (i + 1) w
  | .ref t sz' _, sz, a => constOf t (sz <|> sz') a
  | _, _, _ => none
/-- The components, BackendAst/DAstVariables.fs:117-149: those in the value; of those absent the DEFAULT value, or nothing. The
second result: some component is printed. -/
def constFields : CFields → List (Option AV) → Option (List (Bool × CVal) × Bool)
  | .nil, [] => some ([], false)
  | .cons o t rest, some x :: xs => do
    let w ← constOf t none x
    let (ws, _) ← constFields rest xs
    some ((o.hasBit, w) :: ws, true)
  | .cons (.default d) t rest, none :: xs => do
    let w ← constOf t none d
    let (ws, _) ← constFields rest xs
    some ((false, w) :: ws, true)
  | .cons _ t rest, none :: xs => do
    let (ws, p) ← constFields rest xs
    some ((false, zeroC t) :: ws, p)
  | _, _ => none
/-- Some component has a bit in `exist` (`Optionality.IsSome`, BackendAst/DAstVariables.fs:120-122). -/
def CFields.anyBit : CFields → Bool
  | .nil => false
  | .cons o _ rest => o.hasBit || rest.anyBit
/-- The alternative, BackendAst/DAstVariables.fs:151-160. -/
def constAlt : CAlts → Nat → AV → Option CVal
  | .nil, _, _ => none
  | .cons t _, 0, x => constOf t none x
  | .cons _ rest, i + 1, x => constAlt rest i x
end

end Asn1
