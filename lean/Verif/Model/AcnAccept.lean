import Verif.Model.AcnGen
import Verif.Model.AcnSizes
import Verif.Model.Constraint
import Verif.Model.Valid
/-!
# Which ACN encodings the compiler accepts

The choice of an encoding from the ACN properties of an INTEGER or ENUMERATED, the check that it has room for all values of the
type, and the numbers of the items of an ENUMERATED. Rejection (a `SemanticError`, or an exception of `BigInteger.Pow` for a
negative exponent) is `none`.

Simplifications: `integerSizeInBytes = 8` (the default); alignment, source positions and warnings are left out; the class of an
INTEGER is that of its own range (FrontEndAst/AcnCreateFromAntlr.fs:247-249 takes the class from the constraints of the type
itself and the range from all constraints).
-/
namespace Asn1

/-- `AcnIntEncoding`, CommonTypes/AcnGenericTypes.fs:299-303. -/
inductive AcnIntEncoding where
  | posInt
  | twosComplement
  | ascii
  | bcd
deriving DecidableEq

/-- `AcnIntSizeProperty`, CommonTypes/AcnGenericTypes.fs:295-297. -/
inductive AcnIntSize where
  | fixed (bits : Nat)
  | nullTerminated (pattern : List Byte)
deriving DecidableEq

/-- `IntegerAcnProperties` without the mapping function, CommonTypes/AcnGenericTypes.fs:325-330. `little`: the property `endianness`. -/
structure AcnIntProps where
  encoding : Option AcnIntEncoding
  size : Option AcnIntSize
  little : Option Bool
deriving DecidableEq

/-- The properties as they are written in the ACN file: `size n`, or `size null-terminated` with the bits of `termination-pattern`.
`GP_Fixed`, `GP_NullTerminated`, CommonTypes/AcnGenericTypes.fs:468-471. -/
inductive AcnIntSizeText where
  | fixed (bits : Nat)
  | nullTerminated (pattern : Option (List Bool))
deriving DecidableEq

/-- The ACN properties of an INTEGER or ENUMERATED in the ACN file, FrontEndAst/AcnCreateFromAntlr.fs:250-258. -/
structure AcnIntText where
  encoding : Option AcnIntEncoding
  size : Option AcnIntSizeText
  little : Option Bool
deriving DecidableEq

/-- `getIntSizeProperty`, FrontEndAst/AcnCreateFromAntlr.fs:39-56. A terminator is a zero octet if no pattern is given. -/
def intSize : AcnIntSizeText → Option AcnIntSize
  | .fixed n => some (.fixed n)
  | .nullTerminated none => some (.nullTerminated [0#8])
  | .nullTerminated (some bits) =>
    if bits.length % 8 ≠ 0 then none
    else if (packBits bits).length > 10 then none
    else some (.nullTerminated (packBits bits))

/-- The `IntegerAcnProperties` record of `mergeInteger`, FrontEndAst/AcnCreateFromAntlr.fs:250-258. -/
def intProps (t : AcnIntText) : Option AcnIntProps :=
  match t.size with
  | none => some ⟨t.encoding, none, t.little⟩
  | some sz =>
    match intSize sz with
    | none => none
    | some sz => some ⟨t.encoding, some sz, t.little⟩

/-- The classes of fixed size of `PosInt` and `TwosComplement`, FrontEndAst/AcnEncodingClasses.fs:65-86 and 88-107, 131. -/
def fixedClass (bits : Nat) (little : Bool) : Option IntEnc :=
  if bits = 8 then some .const8
  else if bits = 16 then some (if little then .little 2 else .big 2)
  else if bits = 32 then some (if little then .little 4 else .big 4)
  else if bits = 64 then some (if little then .little 8 else .big 8)
  else if little then none
  else if bits > 64 then none
  else some (.const bits)

/-- `GetIntEncodingClass`, FrontEndAst/AcnEncodingClasses.fs:34-133. -/
def intEncodingClass (p : AcnIntProps) (unsigned : Bool) : Option IntEnc :=
  if p.encoding.isNone && p.size.isNone && p.little.isNone then some .uper
  else
    match p.encoding, p.size with
    | none, _ => none
    | _, none => none
    | some .posInt, some (.fixed n) => if unsigned then fixedClass n (p.little.getD false) else none
    | some .posInt, some (.nullTerminated _) => none
    | some .twosComplement, some (.fixed n) => if unsigned then none else fixedClass n (p.little.getD false)
    | some .twosComplement, some (.nullTerminated _) => none
    | some .ascii, some (.fixed n) =>
      if p.little.getD false then none
      else if n > maxDigits unsigned * 8 + 8 then none
      else if n % 8 ≠ 0 then none
      else some (.ascii (n / 8))
    | some .bcd, some (.fixed n) =>
      if p.little.getD false then none
      else if n > maxDigits unsigned * 4 then none
      else if n % 4 ≠ 0 then none
      else some (.bcd (n / 4))
    | some .bcd, some (.nullTerminated _) => if p.little.getD false then none else some .bcdNull
    | some .ascii, some (.nullTerminated b) => if p.little.getD false then none else some (.asciiNull b)

/-- `checkBinary`, FrontEndAst/AcnCreateFromAntlr.fs:181-184. -/
def checkBinary (unsigned : Bool) (n : Nat) (lo hi : Int) : Bool :=
  if unsigned then decide (0 ≤ lo ∧ hi ≤ 2 ^ n - 1)
  else n ≠ 0 && decide (-(2 ^ (n - 1)) ≤ lo ∧ hi ≤ 2 ^ (n - 1) - 1)

/-- `checkAscii` as it is called, with `isUnsigned = false`, FrontEndAst/AcnCreateFromAntlr.fs:185-189, 215, 217. -/
def checkAscii (d : Nat) (lo hi : Int) : Bool :=
  d ≠ 0 && decide (-(10 ^ (d - 1)) ≤ lo ∧ hi ≤ 10 ^ (d - 1) - 1)

/-- `checkIntHasEnoughSpace` without a mapping function, FrontEndAst/AcnCreateFromAntlr.fs:171-220. -/
def checkSpace (unsigned : Bool) (enc : IntEnc) (lo hi : Int) : Bool :=
  match enc with
  | .uper => true
  | .const n => checkBinary unsigned n lo hi
  | .const8 => checkBinary unsigned 8 lo hi
  | .big size => checkBinary unsigned (8 * size) lo hi
  | .little size => checkBinary unsigned (8 * size) lo hi
  | .bcd n => decide (0 ≤ lo ∧ hi ≤ 10 ^ n - 1)
  | .bcdNull => true
  | .ascii n => checkAscii n lo hi
  | .asciiNull _ => true

/-- `asn1Min`, `asn1Max` of `mergeInteger`, FrontEndAst/AcnCreateFromAntlr.fs:283-289. -/
def asn1Bounds : Rng → Int × Int
  | .concrete a b => (a, b)
  | .negInf b => (-(2 ^ 63), b)
  | .posInf a => if a ≥ 0 then (a, 2 ^ 64 - 1) else (a, 2 ^ 63 - 1)
  | .full => (-(2 ^ 63), 2 ^ 63 - 1)

/-- The choice of the encoding and the check of its size, FrontEndAst/AcnCreateFromAntlr.fs:280, 308 and 785, 790. -/
def acceptRange (t : AcnIntText) (unsigned : Bool) (lo hi : Int) : Option IntEnc :=
  match (intProps t).bind fun p => intEncodingClass p unsigned with
  | none => none
  | some enc => if checkSpace unsigned enc lo hi then some enc else none

/-- `mergeInteger`, FrontEndAst/AcnCreateFromAntlr.fs:240-311: the encoding of an INTEGER without mapping function. -/
def acceptInt (slim : Bool) (t : AcnIntText) (r : Rng) : Option IntEnc :=
  acceptRange t (intClassOf slim r).positive (asn1Bounds r).1 (asn1Bounds r).2

/-! ## ENUMERATED -/

/-- An item of an ENUMERATED: its name, the number in parentheses, the number that the ACN specification gives it
(`ENUM_SET_VALUE`). `NamedItem`, FrontEndAst/Asn1Ast.fs. Simplification: references to values are resolved. -/
structure EnumDecl where
  name : String
  value : Option Int
  set : Option Int
deriving DecidableEq

/-- How many of the used numbers are not below `v`. -/
def usedFrom (used : List Int) (v : Int) : Nat := (used.filter fun u => decide (v ≤ u)).length

theorem usedFrom_lt {used : List Int} {v : Int} (h : v ∈ used) : usedFrom used (v + 1) < usedFrom used v := by
  induction used with
  | nil => simp at h
  | cons a l ih =>
    have mono : usedFrom l (v + 1) ≤ usedFrom l v := by
      clear ih h
      induction l with
      | nil => simp [usedFrom]
      | cons b l ih =>
        unfold usedFrom at ih ⊢
        rw [List.filter_cons, List.filter_cons]
        split <;> split <;> simp_all <;> omega
    rcases List.mem_cons.1 h with rfl | h
    · unfold usedFrom at mono ⊢
      rw [List.filter_cons, List.filter_cons, if_neg (by simp; omega), if_pos (by simp), List.length_cons]
      omega
    · have := ih h
      unfold usedFrom at this ⊢
      rw [List.filter_cons, List.filter_cons]
      split <;> split <;> simp_all <;> omega

/-- `getValue` of `allocateItems`, FrontEndAst/AcnCreateFromAntlr.fs:715-718. -/
def freshValue (used : List Int) (v : Int) : Int :=
  if h : v ∈ used then freshValue used (v + 1) else v
termination_by usedFrom used v
decreasing_by exact usedFrom_lt h

/-- `allocateItems`, FrontEndAst/AcnCreateFromAntlr.fs:711-721. -/
def allocateItems : List String → List (String × Int) → Int → List (String × Int)
  | [], allocated, _ => allocated
  | x :: xs, allocated, potential =>
    let vl := freshValue (allocated.map Prod.snd) potential
    allocateItems xs (allocated ++ [(x, vl)]) (vl + 1)

/-- The place of a name among the items, FrontEndAst/AcnCreateFromAntlr.fs:722. -/
def itemIndex (items : List EnumDecl) (name : String) : Nat := (items.map EnumDecl.name).idxOf name

/-- `allocatedValuesToAllEnumItems`, FrontEndAst/AcnCreateFromAntlr.fs:707-723: the names and numbers of the items. -/
def definitionItems (items : List EnumDecl) : List (String × Int) :=
  let allocated := items.filterMap fun it => it.value.map fun v => (it.name, v)
  let unallocated := (items.filter fun it => it.value.isNone).map EnumDecl.name
  (allocateItems unallocated allocated 0).mergeSort fun a b => decide (itemIndex items a.1 ≤ itemIndex items b.1)

/-- `mapItem`, FrontEndAst/AcnCreateFromAntlr.fs:725-766: the number of each item and the number that is encoded for it. -/
def encodedItems (encodeValues : Bool) (items : List EnumDecl) : List (Int × Int) :=
  (definitionItems items).mapIdx fun i p =>
    (p.2,
      if encodeValues then
        match (items.find? fun it => it.name = p.1).bind EnumDecl.set with
        | some v => v
        | none => p.2
      else (i : Int))

/-- `GetEnumeratedEncodingClass`, FrontEndAst/AcnEncodingClasses.fs:135-143, and `mergeEnumerated`,
FrontEndAst/AcnCreateFromAntlr.fs:785-790: the encoding of an ENUMERATED and its items. -/
def acceptEnum (t : AcnIntText) (encodeValues : Bool) (items : List EnumDecl) : Option (List (Int × Int) × IntEnc) :=
  let its := encodedItems encodeValues items
  let lo := (its.map Prod.snd).min?.getD 0
  let hi := (its.map Prod.snd).max?.getD 0
  (acceptRange t (!encodeValues || decide (lo ≥ 0)) lo hi).map fun enc => (its, enc)

end Asn1
