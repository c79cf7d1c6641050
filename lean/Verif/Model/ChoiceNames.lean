import Verif.Model.Names
/-!
# How the compiler chooses the names of the alternatives of CHOICE types

The names of the C enumerators that tell which alternative is present. An alternative is an `Enumerant`: the key of its CHOICE
type and its name so far (`present_when_name`).
-/
namespace Asn1

/-- `icompare`, CommonTypes/FsUtils.fs:200-201. Simplified: the letters of ASN.1 names, in a culture that pairs the letters A to Z
with a to z. -/
def icompare (x y : CName) : Bool := x.map Char.toLower == y.map Char.toLower

/-- `keepDuplicatesCaseInsensitive`, CommonTypes/FsUtils.fs:483-496. Instead of filtering a name out of the list, the names that have
been filtered out are passed on. -/
def keepDuplicatesFold (gone : List CName) : List CName → List CName
  | [] => []
  | x :: xs =>
    if gone.contains x then keepDuplicatesFold gone xs
    else if (xs.filter fun y => !gone.contains y).any (icompare x) then x :: keepDuplicatesFold (x :: gone) xs
    else keepDuplicatesFold gone xs

/-- `doubleEnumNames`, FrontEndAst/EnsureUniqueEnumNames.fs:26-34. -/
def doubleChoiceNames (items : List Enumerant) : List CName := keepDuplicatesFold [] (items.map Enumerant.name)

/-- `CloneChild`, FrontEndAst/EnsureUniqueEnumNames.fs:40-55, as far as names go. `none`: the error message of line 51. -/
def copyChoice (dups : List CName) (e : Enumerant) : Option Enumerant :=
  if dups.any (icompare e.name) then
    match (e.key.reverse.map toC).dropWhile (containsText e.name) with
    | [] => none
    | x :: _ => some { e with name := toC (x ++ '_' :: e.name) }
  else some { e with name := toC e.name }

/-- `handleEnumChoices` for the policy `SelectiveEnumerants`, FrontEndAst/EnsureUniqueEnumNames.fs:25-76. The first argument bounds the
number of rounds. Simplified: the whole tree is the list of the alternatives of its CHOICE types. -/
def handleChoices : Nat → List Enumerant → Renaming
  | 0, _ => .running
  | fuel + 1, items =>
    if doubleChoiceNames items = [] then .done items
    else
      match items.mapM (copyChoice (doubleChoiceNames items)) with
      | none => .crashed
      | some items' => handleChoices fuel items'

/-- An alternative before renaming: `present_when_name = ToC2 c.Name.Value`, FrontEndAst/MapParamAstToNonParamAst.fs:258. -/
def alternative (key : List CName) (asn1Name : CName) : Enumerant := ⟨key, toC asn1Name⟩

/-- `presentWhenName` for C, FrontEndAst/DAstUtilFunctions.fs:188 and 193. -/
def presentName (e : Enumerant) : CName := toC e.name ++ "_PRESENT".toList

end Asn1
