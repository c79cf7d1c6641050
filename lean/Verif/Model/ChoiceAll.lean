import Verif.Model.ChoiceNames
/-!
# Names of alternatives under the policy `AllEnumerants`

Here all alternatives of a CHOICE type get the same prefix, so that the tree of types matters.
-/
namespace Asn1

mutual
/-- `Asn1Type`, FrontEndAst/Asn1Ast.fs:124-153, as far as names of alternatives go. -/
inductive NameTree where
  | leaf
  | choice (alts : NameAlts)
  | seq (fs : NameFields)
  | seqOf (t : NameTree)
/-- `ChildInfo`, FrontEndAst/Asn1Ast.fs:162-171: the name in ASN.1, `present_when_name` and the type. -/
inductive NameAlts where
  | nil
  | cons (name pname : CName) (t : NameTree) (rest : NameAlts)
/-- The components of a SEQUENCE: the name in ASN.1 and the type. -/
inductive NameFields where
  | nil
  | cons (name : CName) (t : NameTree) (rest : NameFields)
end

mutual
/-- `names` of all CHOICE types inside, FrontEndAst/EnsureUniqueEnumNames.fs:29-34. Simplified: the names of inner types follow each alternative; the
order only decides which of equal names is kept. -/
def NameTree.names : NameTree → List CName
  | .leaf => []
  | .choice alts => alts.names
  | .seq fs => fs.names
  | .seqOf t => t.names
def NameAlts.names : NameAlts → List CName
  | .nil => []
  | .cons _ p t rest => p :: (t.names ++ rest.names)
def NameFields.names : NameFields → List CName
  | .nil => []
  | .cons _ t rest => t.names ++ rest.names
end

/-- `s.Replace(pat, "")` of strings (an exception if `pat` is empty, which no name is); the first argument counts the characters still to be left
out. FrontEndAst/EnsureUniqueEnumNames.fs:67. -/
def removeText (pat : CName) : Nat → CName → CName
  | _, [] => []
  | k + 1, _ :: cs => removeText pat k cs
  | 0, c :: cs => if pat.isPrefixOf (c :: cs) then removeText pat (pat.length - 1) cs else c :: removeText pat 0 cs

/-- `List.maxBy(fun prf -> prf.Length)`: the first of the longest. FrontEndAst/EnsureUniqueEnumNames.fs:67. -/
def longest : List CName → Option CName
  | [] => none
  | x :: xs =>
    match longest xs with
    | none => some x
    | some y => some (if x.length < y.length then y else x)

/-- The prefixes that the alternatives would get: `present_when_name` without the name, FrontEndAst/EnsureUniqueEnumNames.fs:67. -/
def NameAlts.prefixes : NameAlts → List CName
  | .nil => []
  | .cons n p _ rest => removeText (toC n) 0 p :: rest.prefixes

/-- `{ch with present_when_name = newPrefix + ch.present_when_name}`, FrontEndAst/EnsureUniqueEnumNames.fs:68-69. -/
def NameAlts.addPrefix (x : CName) : NameAlts → NameAlts
  | .nil => .nil
  | .cons n p t rest => .cons n (x ++ p) t (rest.addPrefix x)

mutual
/-- `CloneType` for the policy `AllEnumerants`, FrontEndAst/EnsureUniqueEnumNames.fs:39-73, and CloneTree.fs:80-94 for other types. The new children of
a CHOICE are made of the old ones (line 69), so that what has been done to the types of the alternatives is lost. -/
def NameTree.cloneAll (dups : List CName) (key : List CName) : NameTree → Option NameTree
  | .leaf => some .leaf
  | .choice alts => do
    let new ← alts.cloneAll dups key
    let x ← longest new.prefixes
    some (.choice (alts.addPrefix x))
  | .seq fs => do
    let new ← fs.cloneAll dups key
    some (.seq new)
  | .seqOf t => do
    let new ← t.cloneAll dups (key ++ [['#']])
    some (.seqOf new)
/-- `CloneChild`, FrontEndAst/EnsureUniqueEnumNames.fs:40-55, for all alternatives. -/
def NameAlts.cloneAll (dups : List CName) (key : List CName) : NameAlts → Option NameAlts
  | .nil => some .nil
  | .cons n p t rest => do
    let t' ← t.cloneAll dups (key ++ [n])
    let e ← copyChoice dups ⟨key, p⟩
    let rest' ← rest.cloneAll dups key
    some (.cons n e.name t' rest')
/-- `CloneChild`, FrontEndAst/CloneTree.fs:81-83, for the components of a SEQUENCE. -/
def NameFields.cloneAll (dups : List CName) (key : List CName) : NameFields → Option NameFields
  | .nil => some .nil
  | .cons n t rest => do
    let t' ← t.cloneAll dups (key ++ [n])
    let rest' ← rest.cloneAll dups key
    some (.cons n t' rest')
end

/-- A type assignment: the names of the module and of the assignment, and the type. FrontEndAst/CloneTree.fs:57-58. -/
structure NameAssignment where
  module : CName
  name : CName
  type : NameTree

/-- `CloneTypeAssignment`, FrontEndAst/CloneTree.fs:57-58. -/
def NameAssignment.cloneAll (dups : List CName) (a : NameAssignment) : Option NameAssignment := do
  let t ← a.type.cloneAll dups [a.module, a.name]
  some { a with type := t }

/-- What became of the renaming, as `Renaming`. -/
inductive TreeRenaming where
  | done (as : List NameAssignment)
  | crashed
  | running

/-- The names of all alternatives, FrontEndAst/EnsureUniqueEnumNames.fs:26-34. -/
def allNames (as : List NameAssignment) : List CName := as.flatMap fun a => a.type.names

/-- `handleEnumChoices` for the policy `AllEnumerants`, FrontEndAst/EnsureUniqueEnumNames.fs:25-76. The first argument bounds the number of
rounds. -/
def handleAll : Nat → List NameAssignment → TreeRenaming
  | 0, _ => .running
  | fuel + 1, as =>
    if keepDuplicatesFold [] (allNames as) = [] then .done as
    else
      match as.mapM (NameAssignment.cloneAll (keepDuplicatesFold [] (allNames as))) with
      | none => .crashed
      | some as' => handleAll fuel as'

end Asn1
