import Verif.Model.Core
/-!
# How the compiler chooses names of C types and of enumerants

Names are lists of characters. Strings of .NET are compared ordinally here; `StartsWith` without a comparison kind is culture-sensitive in .NET, which
makes no difference for names of letters, digits, hyphens and underscores.
-/
namespace Asn1

/-- A name in an ASN.1 specification or in generated C code. -/
abbrev CName := List Char

/-- `ToC`: `-`, `.`, `(` and `)` become `_`, `#` becomes `elm`. `/repo/CommonTypes/FsUtils.fs:119`. -/
def toC : CName → CName
  | [] => []
  | c :: cs =>
    if c = '#' then 'e' :: 'l' :: 'm' :: toC cs
    else if c = '-' ∨ c = '.' ∨ c = '(' ∨ c = ')' then '_' :: toC cs
    else c :: toC cs

/-- `c_keywords`. `/repo/CommonTypes/CommonTypes.fs:12`. -/
def cKeywords : List CName :=
  ["auto", "break", "case", "char", "const", "continue", "default", "do", "double", "else", "enum", "extern", "float", "for", "goto", "if", "int",
   "long", "register", "return", "short", "signed", "sizeof", "static", "struct", "switch", "typedef", "union", "unsigned", "void", "volatile",
   "while"].map String.toList

/-! ## Names of types -/

/-- The name up to its last underscore and the part behind it, `none` if there is none: `oldName.Split('_') |> Seq.toList |> List.rev` with the other
parts joined again. `/repo/FrontEndAst/FE_TypeDefinition.fs:18-23`. -/
def lastPart : CName → Option (CName × CName)
  | [] => none
  | c :: cs =>
    match lastPart cs with
    | some (r, l) => some (c :: r, l)
    | none => if c = '_' then some ([], cs) else none

/-- The number that a non-empty row of decimal digits stands for. -/
def parseNat (l : CName) : Option Nat :=
  if l ≠ [] ∧ l.all Char.isDigit then some (Nat.ofDigitChars 10 l 0) else none

/-- `Int32.TryParse curN`: an optional sign and digits, in the range of 32-bit numbers. Simplified: white space around the number is not accepted (no name
holds white space). `/repo/FrontEndAst/FE_TypeDefinition.fs:22`. -/
def parseInt32 : CName → Option Int
  | '-' :: ds => (parseNat ds).bind fun n => if n ≤ 2147483648 then some (-(n : Int)) else none
  | '+' :: ds => (parseNat ds).bind fun n => if n ≤ 2147483647 then some (n : Int) else none
  | ds => (parseNat ds).bind fun n => if n ≤ 2147483647 then some (n : Int) else none

/-- `num+1` of 32-bit numbers (unchecked arithmetic). `/repo/FrontEndAst/FE_TypeDefinition.fs:23`. -/
def wrapInc (v : Int) : Int := if v = 2147483647 then -2147483648 else v + 1

/-- `ToString()` of a 32-bit number. `/repo/FrontEndAst/FE_TypeDefinition.fs:23`. -/
def intText (v : Int) : CName := if v < 0 then '-' :: Nat.toDigits 10 v.natAbs else Nat.toDigits 10 v.natAbs

/-- `getNextCount`. `/repo/FrontEndAst/FE_TypeDefinition.fs:17-24`. -/
def nextCount (oldName : CName) : CName :=
  match lastPart oldName with
  | none => oldName ++ ['_', '1']
  | some (r, l) =>
    match parseInt32 l with
    | some num => r ++ '_' :: intText (wrapInc num)
    | none => oldName ++ ['_', '1']

/-- `allocatedTypeNames` for the language C: each name with the program units in which it is taken. `/repo/FrontEndAst/Asn1AcnAst.fs:963`. -/
abbrev Taken := List (CName × List CName)

/-- `allocatedTypeNames.TryFind`. -/
def Taken.find (t : Taken) (n : CName) : Option (List CName) := (t.find? fun p => p.1 = n).map Prod.snd

/-- `addAllocatedTypeNames`; C is case-sensitive. `/repo/FrontEndAst/FE_TypeDefinition.fs:26-35`. -/
def Taken.add (t : Taken) (unit n : CName) : Taken :=
  match t.find n with
  | none => (n, [unit]) :: t
  | some us => (n, unit :: us) :: t.filter fun p => p.1 ≠ n

/-- The test for keywords at the start of each round. `/repo/FrontEndAst/FE_TypeDefinition.fs:40-44`. -/
def avoidKeyword (n : CName) : CName := if cKeywords.contains n then nextCount n else n

/-- The name with the program unit put in front of it, behind the type prefix. `/repo/FrontEndAst/FE_TypeDefinition.fs:58-60`. -/
def withUnit (typePrefix unit n : CName) : CName :=
  if typePrefix.isPrefixOf n then typePrefix ++ unit ++ '_' :: n.drop typePrefix.length else unit ++ '_' :: n

/-- `getValidTypeDefname` for C (`OnTypeNameConflictTryAppendModName` is true, `/repo/StgC/LangGeneric_c.fs:48`). The first argument bounds the number of
rounds, `none` means that they did not suffice. `/repo/FrontEndAst/FE_TypeDefinition.fs:37-61`. -/
def validTypeName : Nat → CName → Taken → CName → CName → Option CName
  | 0, _, _, _, _ => none
  | fuel + 1, typePrefix, taken, unit, proposed =>
    match taken.find (avoidKeyword proposed) with
    | none => some (avoidKeyword proposed)
    | some units =>
      if units.contains unit then validTypeName fuel typePrefix taken unit (nextCount (avoidKeyword proposed))
      else validTypeName fuel typePrefix taken unit (withUnit typePrefix unit (avoidKeyword proposed))

/-- `reserveTypeDefinitionName` for C. `/repo/FrontEndAst/FE_TypeDefinition.fs:72-73`. -/
def reserveTypeName (fuel : Nat) (typePrefix : CName) (taken : Taken) (unit proposed : CName) : Option (CName × Taken) :=
  match validTypeName fuel typePrefix taken unit proposed with
  | none => none
  | some n => some (n, taken.add unit n)

/-- Names for a row of requests (program unit and proposed name), one after the other, as the fold over the type assignments does it.
`/repo/FrontEndAst/AcnCreateFromAntlr.fs:1776-1782`. -/
def reserveTypeNames (fuel : Nat) (typePrefix : CName) : Taken → List (CName × CName) → Option (List CName × Taken)
  | taken, [] => some ([], taken)
  | taken, (unit, proposed) :: rest =>
    match reserveTypeName fuel typePrefix taken unit proposed with
    | none => none
    | some (n, taken') =>
      match reserveTypeNames fuel typePrefix taken' rest with
      | none => none
      | some (ns, taken'') => some (n :: ns, taken'')

/-- The requests of the type assignments: modules with their types, in the order of the specification. `/repo/FrontEndAst/AcnCreateFromAntlr.fs:1765-1775`. -/
def typeRequests (typePrefix : CName) (modules : List (CName × List CName)) : List (CName × CName) :=
  modules.flatMap fun m => m.2.map fun t => (toC m.1, toC (typePrefix ++ t))

/-- The names of the C types of all type assignments. `/repo/FrontEndAst/AcnCreateFromAntlr.fs:1762-1782`. -/
def typedefNames (fuel : Nat) (typePrefix : CName) (modules : List (CName × List CName)) : Option (List CName) :=
  (reserveTypeNames fuel typePrefix [] (typeRequests typePrefix modules)).map Prod.fst

/-- The names of the functions that are generated for a type: `td.typeName + codec.suffix` for uPER, with `_ACN` and `_XER` before the suffix for these
encodings, `_Initialize`, `_IsConstraintValid` and `_Equal`. `/repo/BackendAst/DAstUPer.fs:15-18`, `/repo/BackendAst/Acn/AcnFunctionWrapper.fs:39`,
`/repo/BackendAst/DAstXer.fs:69-70`, `/repo/BackendAst/DAstInitialize.fs:169`, `/repo/StgC/init_c.stg:5`, `/repo/BackendAst/DastValidate2.fs:565`,
`/repo/BackendAst/DAstEqual.fs:115`. -/
def functionNames (t : CName) : List CName :=
  ["_Encode", "_Decode", "_ACN_Encode", "_ACN_Decode", "_XER_Encode", "_XER_Decode", "_Initialize", "_IsConstraintValid", "_Equal"].map
    fun s => t ++ s.toList

/-! ## Names of enumerants -/

/-- An enumerant: the names under which its type is found (module, type assignment, then components, `#` for an element of a SEQUENCE OF), and the name
it has in C so far. `/repo/FrontEndAst/CloneTree.fs:57-58`, `:81-94`, `/repo/FrontEndAst/EnsureUniqueEnumNames.fs:229-243`. -/
structure Enumerant where
  key : List CName
  name : CName
  deriving DecidableEq, Repr

/-- `x.Contains y` of strings. -/
def containsText (x y : CName) : Bool :=
  match x with
  | [] => y.isEmpty
  | c :: cs => y.isPrefixOf (c :: cs) || containsText cs y

/-- `keepDuplicates_private` for a case-sensitive language. Instead of filtering `skip` out of the list (`List.filter ((<>) x)`) the names to be left out are
passed on. `/repo/CommonTypes/FsUtils.fs:483-490`. -/
def keepDuplicatesBut (skip : List CName) : List CName → List CName
  | [] => []
  | x :: xs =>
    if skip.contains x then keepDuplicatesBut skip xs
    else if xs.contains x then x :: keepDuplicatesBut (x :: skip) xs
    else keepDuplicatesBut skip xs

/-- `keepDuplicates`: the first of equal names, for each name that occurs again. `/repo/CommonTypes/FsUtils.fs:483-501`. -/
def keepDuplicates (l : List CName) : List CName := keepDuplicatesBut [] l

/-- `doubleEnumNames`: the names of the enumerants, the names of the value assignments and the keywords. Simplified: the names of all enumerants come first
(the code lists them module by module; the order only decides which of equal names is kept). `/repo/FrontEndAst/EnsureUniqueEnumNames.fs:207-221`. -/
def doubleEnumNames (items : List Enumerant) (values : List CName) : List CName :=
  keepDuplicates (items.map Enumerant.name ++ values ++ cKeywords)

/-- `copyItem`: an enumerant whose name occurs more than once gets the innermost part of its key that its name does not contain as a prefix; `Seq.head`
raises an exception if there is none. `/repo/FrontEndAst/EnsureUniqueEnumNames.fs:229-236`. -/
def copyItem (dups : List CName) (e : Enumerant) : Option Enumerant :=
  if dups.contains e.name then
    match (e.key.reverse.map toC).dropWhile (containsText e.name) with
    | [] => none
    | x :: _ => some { e with name := x ++ '_' :: e.name }
  else some e

/-- What became of the renaming: finished with these enumerants, stopped by an exception, or still going on when the rounds were used up. -/
inductive Renaming where
  | done (items : List Enumerant)
  | crashed
  | running
  deriving DecidableEq, Repr

/-- `handleEnums` for C and the policy `SelectiveEnumerants`, which is the default for C (`/repo/asn1scc/Program.fs:352-367`). The first argument bounds the
number of rounds. Simplified: the whole tree is the list of its enumerants. `/repo/FrontEndAst/EnsureUniqueEnumNames.fs:205-253`. -/
def handleEnums : Nat → List CName → List Enumerant → Renaming
  | 0, _, _ => .running
  | fuel + 1, values, items =>
    if doubleEnumNames items values = [] then .done items
    else
      match items.mapM (copyItem (doubleEnumNames items values)) with
      | none => .crashed
      | some items' => handleEnums fuel values items'

/-- An enumerant before renaming: `c_name = ToC n.Name.Value`. `/repo/FrontEndAst/MapParamAstToNonParamAst.fs:269`. -/
def enumerant (key : List CName) (asn1Name : CName) : Enumerant := ⟨key, toC asn1Name⟩

end Asn1
