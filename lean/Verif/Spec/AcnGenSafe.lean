import Verif.Spec.AcnGen
/-!
# Specification: the ACN types whose decoder withstands arbitrary input

The conditions are about the type and its ACN specification alone. Each excludes a form for which the emitted decoder is shown to fail (`Props/AcnGenSafe.lean`), or for
which the runtime function alone does (C23, C24, C25, C58).
-/
namespace Asn1

/-- The decoder of an integer is safe: sizes that the runtime supports; not the ASCII encodings, which stop at a character that is no digit or no
sign; the uPER encoding as for `Guarded`. -/
def IntGuarded (w : Nat) (r : Rng) : IntEnc → Prop
  | .uper => r.ok w false ∧ ∀ a, r = .posInf a → 0 ≤ a
  | .const n => n ≤ 64
  | .const8 => True
  | .big size => 1 ≤ size ∧ size ≤ 8
  | .little size => 1 ≤ size ∧ size ≤ 8
  | .bcd _ => True
  | .bcdNull => True
  | .ascii _ => False
  | .asciiNull _ => r.unsigned = true

/-- The decoder of a leaf is safe. With the uPER encoding an ENUMERATED must have encode values that are not negative. -/
def LeafGuarded : ALeaf → Prop
  | .int w r enc _ => IntGuarded w r enc
  | .bool .uper => True
  | .bool (.onePattern _ tp fp n) => n ≤ 8 * tp.length ∧ n ≤ 8 * fp.length
  | .bool (.twoPatterns tp fp n) => n ≤ 8 * tp.length ∧ n ≤ 8 * fp.length
  | .enum items _ enc =>
    if enc = .uper then items ≠ [] ∧ ∀ it ∈ items, 0 ≤ it.2 ∧ it.2 < 2 ^ 64 else IntGuarded 64 (enumRng items) enc

/-- A bound on what the bits of an unsigned integer can say. -/
def IntEnc.under (enc : IntEnc) (x : Int) : Prop :=
  match enc with
  | .const n => x < 2 ^ n
  | .const8 => x < 2 ^ 8
  | .big size => x < 2 ^ (8 * size)
  | .little size => x < 2 ^ (8 * size)
  | _ => True

/-- The values that the bits of an integer can stand for. -/
def IntMay (w : Nat) (r : Rng) (enc : IntEnc) (x : Int) : Prop :=
  if enc = .uper then ∀ a b, r = .concrete a b → a ≤ x ∧ x ≤ b
  else r.unsigned = true → 0 ≤ x ∧ x < 2 ^ w ∧ enc.under x

/-- The values that the bits of a determinant can stand for, whoever has written them. (The declared range of the determinant plays no role: it is not checked, except
in the uPER encoding.) -/
def DetMay (l : ALeaf) (x : Int) : Prop :=
  match l with
  | .int _ _ _ (some _) => True
  | .int w r enc none => IntMay w r enc x
  | .bool _ => x = 0 ∨ x = 1
  | .enum items _ _ => ∃ y, (x, y) ∈ items

mutual
/-- The determinants that a type assignment inserts, at any depth (not those of referenced types, which are other functions). -/
def dets : ATy → List (Nat × ALeaf)
  | .seq fs => detsFields fs
  | .seqOf _ _ _ t => dets t
  | .choice _ alts => detsAlts alts
  | .align _ t => dets t
  | _ => []
def detsFields : AFields → List (Nat × ALeaf)
  | .nil => []
  | .asn1 _ t rest => dets t ++ detsFields rest
  | .acn k _ l rest => (k, l) :: detsFields rest
  | .acnNull _ _ rest => detsFields rest
def detsAlts : AAlts → List (Nat × ALeaf)
  | .nil => []
  | .cons _ t rest => dets t ++ detsAlts rest
end

/-- What determinant `k` of a type assignment may be: as a parameter what the argument may be, otherwise what its bits can say. -/
def mayBe (params : Nat → Int → Prop) (t : ATy) (k : Nat) (x : Int) : Prop := params k x ∨ ∃ l, (k, l) ∈ dets t ∧ DetMay l x

mutual
/-- Types whose decoder is safe on every input; `P k x`: determinant `k` may be `x`. Excluded:
* an OCTET STRING or BIT STRING of variable size whose determinant can be negative, or can exceed the size although its declared range does not (then
  the emitted code has no test);
* a SEQUENCE OF of variable size whose determinant can be negative;
* null terminated strings, 32 bit little endian REAL, alignment to 16 or 32 bits;
* what `LeafGuarded` and `Guarded` exclude. -/
def AGuarded (P : Nat → Int → Prop) : ATy → Prop
  | .prim t => Guarded t
  | .leaf l => LeafGuarded l
  | .nullPat _ _ => True
  | .real64 _ _ => True
  | .real32 little _ => little = false
  | .octets lo hi k dmax => lo = hi ∨ ∀ x, P k x → 0 ≤ x ∧ (x ≤ hi ∨ ∀ m, dmax = some m → hi < m)
  | .bits lo hi k dmax => lo = hi ∨ ∀ x, P k x → 0 ≤ x ∧ (x ≤ hi ∨ ∀ m, dmax = some m → hi < m)
  | .strAscii _ _ _ => True
  | .strNull _ _ _ _ => False
  | .strExt _ _ _ _ => True
  | .strIdx _ _ _ _ => True
  | .seq fs => AGuardedFields P fs
  | .seqOf lo hi k t => (∀ j, k = some j → lo = hi ∨ ∀ x, P j x → 0 ≤ x) ∧ AGuarded P t
  | .choice _ alts => AGuardedAlts P alts
  | .ref args t => AGuarded (mayBe (fun j x => ∃ k, (k, j) ∈ args ∧ P k x) t) t
  | .align a t => a = .byte ∧ AGuarded P t
def AGuardedFields (P : Nat → Int → Prop) : AFields → Prop
  | .nil => True
  | .asn1 _ t rest => AGuarded P t ∧ AGuardedFields P rest
  | .acn _ a l rest => LeafGuarded l ∧ (∀ b, a = some b → b = .byte) ∧ AGuardedFields P rest
  | .acnNull _ _ rest => AGuardedFields P rest
def AGuardedAlts (P : Nat → Int → Prop) : AAlts → Prop
  | .nil => True
  | .cons _ t rest => AGuarded P t ∧ AGuardedAlts P rest
end

/-- A type without parameters whose decoder is safe on every input. -/
def AcnGuarded (t : ATy) : Prop := AGuarded (mayBe (fun _ _ => False) t) t

end Asn1
