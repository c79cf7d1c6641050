/-! # The order of declarations

The compiler puts type assignments and modules in an order in which everything is declared before it is used
(`CommonTypes/FsUtils.fs`, `BackendAst/DAstProgramUnit.fs`, `BackendAst/DAstConstruction.fs`,
`FrontEndAst/CheckAsn1.fs`, `FrontEndAst/CreateAsn1AstFromAntlrTree.fs`). An exception is `Except.error`
with the nodes that are left; the text of messages is not modelled. -/
namespace Asn1

/-- `dependentNodes2`, CommonTypes/FsUtils.fs:701: the node that was taken is removed from all lists. -/
def dropDone {α β : Type} (cmp : β → α → Bool) (head : α) (dep : List (α × List β)) : List (α × List β) :=
  dep.map fun p => (p.1, p.2.filter fun x => !cmp x head)

/-- `newDependentNodes`, CommonTypes/FsUtils.fs:702. -/
def stillWaiting {α β : Type} (dep : List (α × List β)) : List (α × List β) := dep.filter fun p => !p.2.isEmpty

/-- `independentNodes2` before `List.map fst`, CommonTypes/FsUtils.fs:703. -/
def nowReady {α β : Type} (dep : List (α × List β)) : List (α × List β) := dep.filter fun p => p.2.isEmpty

theorem nowReady_stillWaiting {α β : Type} (dep : List (α × List β)) :
    (nowReady dep).length + (stillWaiting dep).length = dep.length := by
  induction dep with
  | nil => rfl
  | cons a l ih =>
    simp only [nowReady, stillWaiting] at ih ⊢
    cases h : a.2.isEmpty <;> simp [h] <;> omega

/-- CommonTypes/FsUtils.fs:694-706 (`DoTopologicalSort3_aux` in `DoTopologicalSort2`; the same text in
    667-679). `comparer x head` is called with a dependency and a node. -/
def topoAux {α β : Type} (cmp : β → α → Bool) :
    (independentNodes : List α) → (dependentNodes : List (α × List β)) → (ret : List α) → List α × List (α × List β)
  | [], dependentNodes, ret => (ret.reverse, dependentNodes)
  | head :: tail, dependentNodes, ret =>
    topoAux cmp ((nowReady (dropDone cmp head dependentNodes)).map Prod.fst ++ tail)
      (stillWaiting (dropDone cmp head dependentNodes)) (head :: ret)
termination_by ind dep _ => ind.length + dep.length
decreasing_by
  have := nowReady_stillWaiting (dropDone cmp head dependentNodes)
  simp only [List.length_append, List.length_map, List.length_cons, dropDone] at this ⊢
  omega

/-- CommonTypes/FsUtils.fs:690-710 (`DoTopologicalSort2`), 663-683 (`DoTopologicalSort2_noexc`). -/
def topoSort {α β : Type} (cmp : β → α → Bool) (ind : List α) (dep : List (α × List β)) :
    Except (List (α × List β)) (List α) :=
  match topoAux cmp ind dep [] with
  | (sorted, []) => .ok sorted
  | (_, u :: us) => .error (u :: us)

/-- The callers split their nodes in those without and those with dependencies: DAstProgramUnit.fs:88-91 (with
    the imported types as further independent nodes), DAstConstruction.fs:973-976, CheckAsn1.fs:667-670,
    CreateAsn1AstFromAntlrTree.fs:996-1000. -/
def sortNodes {α β : Type} (cmp : β → α → Bool) (imports : List α) (nodes : List (α × List β)) :
    Except (List (α × List β)) (List α) :=
  topoSort cmp (imports ++ (nowReady nodes).map Prod.fst) (stillWaiting nodes)

/-- A type assignment: module and name (`TypeAssignmentInfo`, CommonTypes/CommonTypes.fs). -/
structure TypeName where
  modName : String
  tasName : String
deriving DecidableEq, Repr

mutual
/-- What `getTypeDependencies2` looks at of a type: its ACN parameters that have a reference type, its children
    and its reference. Everything else (constraints, ACN properties, children inserted by ACN, which are not
    in `Asn1Children`) is left out. -/
inductive TShape where
  /-- INTEGER, REAL, strings, ENUMERATED, … -/
  | leaf (prms : List TypeName)
  | seqOf (prms : List TypeName) (child : TShape)
  | sequence (prms : List TypeName) (children : TShapes)
  | choice (prms : List TypeName) (children : TShapes)
  | reference (prms : List TypeName) (name : TypeName)
inductive TShapes where
  | nil
  | cons (t : TShape) (ts : TShapes)
end

mutual
/-- BackendAst/DAstProgramUnit.fs:62-78 (`getTypeDependencies2`), also DAstConstruction.fs:943-961. -/
def typeDeps : TShape → List TypeName
  | .leaf prms => prms
  | .seqOf prms child => prms ++ typeDeps child
  | .sequence prms children => prms ++ typesDeps children
  | .choice prms children => prms ++ typesDeps children
  | .reference prms name => name :: prms
/-- `List.collect (fun ch -> getTypeDependencies2 ch.Type)`, DAstProgramUnit.fs:75-76. -/
def typesDeps : TShapes → List TypeName
  | .nil => []
  | .cons t ts => typeDeps t ++ typesDeps ts
end

/-- An ASN.1 module: its type assignments and its imports (module, types), FrontEndAst/DAst.fs `Asn1Module`. -/
structure AsnModule where
  name : String
  types : List (String × TShape)
  imports : List (String × List String)

/-- An ASN.1 file, FrontEndAst/DAst.fs `Asn1File`. -/
structure AsnFile where
  name : String
  modules : List AsnModule

/-- `fileTases`, DAstProgramUnit.fs:112-117. -/
def AsnFile.tases (f : AsnFile) : List (TypeName × TShape) :=
  f.modules.flatMap fun m => m.types.map fun t => (⟨m.name, t.1⟩, t.2)

/-- `importedModules`, DAstProgramUnit.fs:122-127. -/
def AsnFile.importedModules (f : AsnFile) : List (String × List String) :=
  (f.modules.flatMap AsnModule.imports).filter fun i => !(f.modules.any fun m => m.name == i.1)

/-- `importedTypes`, DAstProgramUnit.fs:135-138 (`Seq.distinct`). -/
def AsnFile.importedTypes (f : AsnFile) : List TypeName :=
  (f.importedModules.flatMap fun i => i.2.map fun t => (⟨i.1, t⟩ : TypeName)).eraseDups

/-- `sortedTypes`, DAstProgramUnit.fs:80-102, 140-146: the order in which the type assignments of the file appear in the
    generated header. `tasSet.TryFind` is the name itself when the file has such an assignment. -/
def AsnFile.sortedTypes (f : AsnFile) : Except (List (TypeName × List TypeName)) (List TypeName) :=
  match sortNodes (fun d n => decide (d = n)) f.importedTypes (f.tases.map fun p => (p.1, typeDeps p.2)) with
  | .ok l => .ok (l.filter fun n => f.tases.any fun p => p.1 == n)
  | .error u => .error u

/-- `importedProgramUnits`, DAstProgramUnit.fs:128-133: the headers that the header of a file includes (`Seq.find` raises an
    exception when no file has the module: `none`). -/
def AsnFile.includes (files : List AsnFile) (f : AsnFile) : Option (List String) :=
  (f.importedModules.mapM fun i => (files.find? fun g => g.modules.any fun m => m.name == i.1).map AsnFile.name).map List.eraseDups

/-- FrontEndAst/CheckAsn1.fs:665-684 (`checkForCyclicModules`). -/
def checkForCyclicModules (files : List AsnFile) : Except (List (String × List String)) (List String) :=
  sortNodes (fun d n => decide (d = n)) []
    ((files.flatMap AsnFile.modules).map fun m => (m.name, m.imports.map Prod.fst))

end Asn1
