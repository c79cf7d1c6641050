import Verif.Model.ChoiceNames
/-!
# How the compiler chooses the names of the members of C structs and unions

A component of a SEQUENCE or an alternative of a CHOICE is an `Enumerant`: the key of the type that it is in, and its name in C so far (`c_name`).
-/
namespace Asn1

/-- The option `-fp`, asn1scc/Program.fs:368-374. -/
inductive FieldPrefix where
  | auto
  | user (p : CName)

/-- `ada_keywords`, CommonTypes/CommonTypes.fs:14. -/
def adaKeywords : List CName :=
  ["abort", "else", "new", "return", "abs", "elsif", "not", "reverse", "abstract", "end", "null", "accept", "entry", "select", "access",
   "exception", "of", "separate", "aliased", "exit", "or", "some", "all", "others", "subtype", "and", "for", "out", "synchronized",
   "array", "function", "overriding", "at", "tagged", "generic", "package", "task", "begin", "goto", "pragma", "terminate", "body",
   "private", "then", "if", "procedure", "type", "case", "in", "protected", "constant", "interface", "until", "is", "raise", "use",
   "declare", "range", "delay", "limited", "record", "when", "delta", "loop", "rem", "while", "digits", "renames", "with", "do", "mod",
   "requeue", "xor"].map String.toList

/-- Does `checkAgainstKeywords` stop the compiler? FrontEndAst/CheckAsn1.fs:24-40 and 504-506. The names are those in ASN.1. Simplified: the
environment variable `ASN1SCC_DISABLE_KEYW_CHECKS` is not set; `ToLower` for the letters of ASN.1. -/
def keywordsRefused (policy : Option FieldPrefix) (names : List CName) : Bool :=
  match policy with
  | none => names.any fun n => (cKeywords ++ adaKeywords).contains (n.map Char.toLower)
  | some _ => false

/-- `Seq.groupBy` of .NET: the keys in the order in which they occur first, each with the elements that have it. -/
def groupsBy {α : Type} (f : α → CName) (l : List α) : List (CName × List α) :=
  (l.map f).eraseDups.map fun k => (k, l.filter fun a => f a == k)

/-- Do `CheckForDuplicates` (for a SEQUENCE) and `CheckForDuplicatesCaseCaseInsensitive` (for a CHOICE) stop the compiler?
CommonTypes/FsUtils.fs:751-776, FrontEndAst/CheckAsn1.fs:499-502. `ToLower` for the letters of ASN.1. -/
def duplicatesRefused (isChoice : Bool) (names : List CName) : Bool :=
  !((groupsBy (fun n => if isChoice then n.map Char.toLower else n) names).filter fun g => g.2.length > 1).isEmpty

/-- A component before renaming: `c_name = ToC2 c.Name.Value`, FrontEndAst/MapParamAstToNonParamAst.fs:253-257. -/
def field (key : List CName) (asn1Name : CName) : Enumerant := ⟨key, toC asn1Name⟩

/-- `invalidComponentNames` for C, FrontEndAst/EnsureUniqueEnumNames.fs:100-133: C is case-sensitive and has no modules (StgC/LangGeneric_c.fs:45
and 208), so that only keywords are invalid. -/
def badFieldNames (items : List Enumerant) : List CName := (items.map Enumerant.name).filter fun n => cKeywords.contains n

/-- `CloneChild`, FrontEndAst/EnsureUniqueEnumNames.fs:140-158. `none`: the exception of `Seq.head` for an empty sequence. Without the message
that is printed. -/
def copyField (bad : List CName) (e : Enumerant) : Option Enumerant :=
  if bad.contains e.name then
    match (e.key.reverse.map toC).dropWhile (containsText e.name) with
    | [] => none
    | x :: _ => some { e with name := x ++ '_' :: e.name }
  else some e

/-- `handleSequencesAndChoices` for `-fp AUTO`, FrontEndAst/EnsureUniqueEnumNames.fs:93-175. The first argument bounds the number of rounds.
Simplified: the whole tree is the list of the components of its SEQUENCE and CHOICE types; types that are written in value assignments, whose
components are renamed too but are not looked at in line 102, are left out. -/
def handleFields : Nat → List Enumerant → Renaming
  | 0, _ => .running
  | fuel + 1, items =>
    if badFieldNames items = [] then .done items
    else
      match items.mapM (copyField (badFieldNames items)) with
      | none => .crashed
      | some items' => handleFields fuel items'

/-- The end of `DoWork`, FrontEndAst/EnsureUniqueEnumNames.fs:267-274, and for a prefix that the user gives 176-201 of the same file. -/
def fieldNames (policy : Option FieldPrefix) (rounds : Nat) (items : List Enumerant) : Renaming :=
  match policy with
  | none => .done items
  | some .auto => handleFields rounds items
  | some (.user p) => .done (items.map fun e => { e with name := p ++ e.name })

/-- The members of the struct for a SEQUENCE with these components (name in C; is it OPTIONAL or has it a DEFAULT?), StgC/header_c.stg:249-271
and FrontEndAst/DAstTypeDefinition.fs:521-533. Without the member `dummy` of an empty SEQUENCE. -/
def structMembers (children : List (CName × Bool)) : List CName :=
  children.map Prod.fst ++ if children.any Prod.snd then ["exist".toList] else []

end Asn1
