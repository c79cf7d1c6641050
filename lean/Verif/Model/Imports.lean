import Verif.Spec.Imports
/-!
How references to types and values find their assignments across modules:
FrontEndAst/CreateAsn1AstFromAntlrTree.fs, FrontEndAst/RemoveParameterizedTypes.fs,
FrontEndAst/Asn1Ast.fs, FrontEndAst/CheckAsn1.fs. Names are compared without their locations
(`PrimitiveWithLocation.Equals`, CommonTypes/FsUtils.fs:181-184). `none` and `false` stand for an error
message. Left out: parameterized types, COMPONENTS OF, the comparison of names without regard to
case (only for Ada), keywords of the target languages, and everything that is checked of types and
values besides names (C103).
-/
namespace Asn1

/-- A type of the abstract syntax tree: a reference has the name of a module and of a type
(`ReferenceType`, FrontEndAst/Asn1Ast.fs), any other type has its children. -/
inductive JTy where
  | ref (md : String) (tas : String)
  | node (kids : List JTy)

/-- `Asn1Module`, FrontEndAst/Asn1Ast.fs:203-212. -/
structure JModule where
  name : String
  imports : List IImport
  exports : Option (List String × List String)
  types : List (String × JTy)
  values : List (String × JTy)

/-- `CreateRefTypeContent`, CreateAsn1AstFromAntlrTree.fs:40-52: the module and the name of a type
reference. The children of type UID of an IMPORTS clause are the name of the module and the imported
types (Antlr/asn1.g:266-269). -/
def refContent (m : IModule) (r : IRef) : String × String :=
  match r.qual with
  | some M => (M, r.name)
  | none =>
    match m.imports.find? fun i => (i.frm :: i.types).contains r.name with
    | some i => (i.frm, r.name)
    | none => (m.name, r.name)

/-- `singleReference2DoubleReference`, CreateAsn1AstFromAntlrTree.fs:116-127: the module and the name of
a value reference, which is always a mere name (Antlr/asn1.g has no `M.v`). -/
def valContent (m : IModule) (v : String) : String × String :=
  match m.imports.find? fun i => i.values.contains v with
  | some i => (i.frm, v)
  | none => (m.name, v)

mutual
/-- The REFERENCED_TYPE and PREFERENCED_TYPE nodes in `AllChildren`,
CreateAsn1AstFromAntlrTree.fs:958-960. -/
def ITy.refs : ITy → List IRef
  | .ref r => [r]
  | .node kids => ITy.refsL kids
/-- The same over the children of a node (CreateAsn1AstFromAntlrTree.fs:958-960). -/
def ITy.refsL : List ITy → List IRef
  | [] => []
  | t :: ts => t.refs ++ ITy.refsL ts
end

/-- `allTasses`, CreateAsn1AstFromAntlrTree.fs:947-970: every type assignment with the references in it. -/
def allTasses (P : List IModule) : List ((String × String) × List (String × String)) :=
  P.flatMap fun m => m.types.map fun t => ((m.name, t.1), t.2.refs.map (refContent m))

/-- `orphanRefTypes` is empty, CreateAsn1AstFromAntlrTree.fs:972-983. -/
def noOrphans (P : List IModule) : Bool :=
  (allTasses P).all fun e => e.2.all fun d => (allTasses P).any fun e' => e'.1 == d

/-- `List.groupBy`, used in CreateAsn1AstFromAntlrTree.fs:990-992: the keys in the order in which they
first occur, each with its elements. -/
def groupByKey {α β : Type} [BEq β] (f : α → β) (l : List α) : List (β × List α) :=
  (l.map f).eraseDups.map fun k => (k, l.filter fun a => f a == k)

/-- `implicitlyImportedTypes`, CreateAsn1AstFromAntlrTree.fs:985-993: for every module the types of
other modules that its type assignments refer to. -/
def implicitTypes (P : List IModule) : List (String × List IImport) :=
  (groupByKey Prod.fst
    (((allTasses P).map fun e => (e.1.1, e.2.filter fun d => d.1 != e.1.1)).filter
      fun e => !e.2.isEmpty)).map fun g =>
    (g.1, (groupByKey Prod.fst (g.2.flatMap Prod.snd)).map fun h =>
      ⟨h.1, (h.2.map Prod.snd).eraseDups, []⟩)

/-- One step of `mergedImports`, CreateAsn1AstFromAntlrTree.fs:893-899. -/
def mergeImport (cur : List IImport) (i : IImport) : List IImport :=
  match cur.find? fun z => z.frm == i.frm with
  | some e => { e with types := (e.types ++ i.types).eraseDups } :: cur.filter fun z => z.frm != e.frm
  | none => i :: cur

/-- `Imports` of a module, CreateAsn1AstFromAntlrTree.fs:888-900. -/
def mergedImports (impl : List (String × List IImport)) (m : IModule) : List IImport :=
  ((impl.filter fun p => p.1 == m.name).flatMap Prod.snd).foldl mergeImport m.imports

mutual
/-- `CreateType` on references (CreateAsn1AstFromAntlrTree.fs:40-52 for the names). -/
def toJ (m : IModule) : ITy → JTy
  | .ref r => .ref (refContent m r).1 (refContent m r).2
  | .node kids => .node (toJL m kids)
/-- `CreateType` on the children of a type (CreateAsn1AstFromAntlrTree.fs:40-52 for the names). -/
def toJL (m : IModule) : List ITy → List JTy
  | [] => []
  | t :: ts => toJ m t :: toJL m ts
end

/-- `CreateAsn1Module`, CreateAsn1AstFromAntlrTree.fs:822-901. The named numbers of INTEGER types,
which become value assignments of the module (832-860), are in `values` already. -/
def createModule (impl : List (String × List IImport)) (m : IModule) : JModule :=
  { name := m.name, imports := mergedImports impl m, exports := m.exports,
    types := m.types.map fun t => (t.1, toJ m t.2), values := m.values.map fun v => (v.1, toJ m v.2) }

/-- `GetModuleByName`, Asn1Ast.fs:229-233. -/
def findModule (Q : List JModule) (md : String) : Option JModule := Q.find? fun m => m.name == md

mutual
/-- `SpecializeType` and `DoAsn1Type` on types without parameters, RemoveParameterizedTypes.fs:192-196,
236-275: the type that a reference names is looked up in the module that it names. -/
def specRefs (Q : List JModule) : JTy → Bool
  | .ref md n => ((findModule Q md).bind fun m => m.types.find? fun t => t.1 == n).isSome
  | .node kids => specRefsL Q kids
/-- The same over children (RemoveParameterizedTypes.fs:258-273). -/
def specRefsL (Q : List JModule) : List JTy → Bool
  | [] => true
  | t :: ts => specRefs Q t && specRefsL Q ts
end

/-- `ExportedTypes`, Asn1Ast.fs:236-242; upper-case letters tell types from values in the list. -/
def JModule.exportedTypes (m : JModule) : List String :=
  match m.exports with
  | none => m.types.map Prod.fst ++ m.imports.flatMap IImport.types
  | some e => e.1

/-- `ExportedVars`, Asn1Ast.fs:243-247. -/
def JModule.exportedVars (m : JModule) : List String :=
  match m.exports with
  | none => m.values.map Prod.fst
  | some e => e.2

mutual
/-- `CheckType` on references, CheckAsn1.fs:588-592. -/
def checkRefs (Q : List JModule) : JTy → Bool
  | .ref md n =>
    match findModule Q md with
    | none => false
    | some im => im.exportedTypes.contains n
  | .node kids => checkRefsL Q kids
/-- `CheckType` over the children of a type (CheckAsn1.fs:588-592 for references). -/
def checkRefsL (Q : List JModule) : List JTy → Bool
  | [] => true
  | t :: ts => checkRefs Q t && checkRefsL Q ts
end

/-- `checkImport`, CheckAsn1.fs:642-662. -/
def checkImport (Q : List JModule) (i : IImport) : Bool :=
  match findModule Q i.frm with
  | none => false
  | some im =>
    (i.types.all fun n => (im.types.map Prod.fst).contains n && im.exportedTypes.contains n) &&
    (i.values.all fun n => (im.values.map Prod.fst).contains n && im.exportedVars.contains n)

/-- `CheckModule`, CheckAsn1.fs:597-662: names that occur twice, the references in types, the imports. -/
def checkNames (Q : List JModule) (m : JModule) : Bool :=
  decide (m.types.map Prod.fst).Nodup &&
  decide (m.imports.flatMap IImport.types).Nodup &&
  decide (m.types.map Prod.fst ++ m.imports.flatMap IImport.types).Nodup &&
  decide (m.values.map Prod.fst).Nodup &&
  decide (m.imports.flatMap IImport.values).Nodup &&
  decide (m.values.map Prod.fst ++ m.imports.flatMap IImport.values).Nodup &&
  (m.types.all fun t => checkRefs Q t.2) &&
  (m.values.all fun v => checkRefs Q v.2) &&
  m.imports.all (checkImport Q)

/-- `checkForCyclicModules` and `CheckFiles`, CheckAsn1.fs:665-693. -/
def checkModules (Q : List JModule) : Bool :=
  (sortNodes (fun d n => decide (d = n)) [] (Q.map fun m => (m.name, m.imports.map IImport.frm))).toBool &&
  decide (Q.map JModule.name).Nodup &&
  Q.all (checkNames Q)

/-- The front end on the modules of all files, as far as names are concerned: `rootCheckCyclicDeps`
(CreateAsn1AstFromAntlrTree.fs:946-1011), `CreateAsn1Module`, `RemoveParameterizedTypes.DoWork` and
`CheckFiles` (FrontEndAst/FrontEntMain.fs:69-93). -/
def resolveNames (P : List IModule) : Option (List JModule) :=
  if noOrphans P && (sortNodes (fun d n => decide (d = n)) [] (allTasses P)).toBool then
    let Q := P.map (createModule (implicitTypes P))
    if (Q.all fun m => (m.types.all fun t => specRefs Q t.2) && (m.values.all fun v => specRefs Q v.2)) &&
        checkModules Q then
      some Q
    else none
  else none

/-- `GetTypeAssignmentByName`, Asn1Ast.fs:262-272, after `GetModuleByName`, allowing a number of
nested calls. -/
def getType (Q : List JModule) : Nat → String → String → Option JTy
  | 0, _, _ => none
  | k + 1, md, n =>
    (findModule Q md).bind fun m =>
    match m.types.find? fun t => t.1 == n with
    | some t => some t.2
    | none =>
      match m.imports.find? fun i => i.types.contains n with
      | some i => getType Q k i.frm n
      | none => none

/-- `GetValueAsigByName`, Asn1Ast.fs:273-284, after `GetModuleByName`: the module in which the value
assignment is found. -/
def getValue (Q : List JModule) : Nat → String → String → Option String
  | 0, _, _ => none
  | k + 1, md, n =>
    (findModule Q md).bind fun m =>
    match m.values.find? fun t => t.1 == n with
    | some _ => some m.name
    | none =>
      match m.imports.find? fun i => i.values.contains n with
      | some i => getValue Q k i.frm n
      | none => none

/-- `GetActualType`, Asn1Ast.fs:288-294. -/
def getActualType (Q : List JModule) : Nat → JTy → Option JTy
  | 0, _ => none
  | k + 1, .ref md n => (getType Q (k + 1) md n).bind (getActualType Q k)
  | _ + 1, .node kids => some (.node kids)

mutual
/-- `mergeType`, FrontEndAst/AcnCreateFromAntlr.fs:1045-1640, on references (1513-1618): the type that a reference names
is built in full in its place. -/
def expandJ (Q : List JModule) : Nat → JTy → Option FTy
  | 0, _ => none
  | k + 1, .ref md n => (getType Q (k + 1) md n).bind (expandJ Q k)
  | k + 1, .node kids => (expandJL Q k kids).map .node
/-- The same over children (AcnCreateFromAntlr.fs:1045-1640). -/
def expandJL (Q : List JModule) : Nat → List JTy → Option (List FTy)
  | 0, _ => none
  | _ + 1, [] => some []
  | k + 1, t :: ts => (expandJ Q k t).bind fun u => (expandJL Q k ts).map (u :: ·)
end

end Asn1
