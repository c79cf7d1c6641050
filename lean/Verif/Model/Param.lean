import Verif.Spec.Param
/-
Removal of parameterized types: FrontEndAst/RemoveParameterizedTypes.fs. Every instance of a
parameterized type is replaced by a copy of its body. `none` stands for an error message, for an
exception and for running out of the given number of nested calls; a run that never ends is
`none` for every number.

Left out throughout: implicit imports, ACN properties, locations and comments, COMPONENTS OF,
included types, and the module of a name that denotes an item of an ENUMERATED type.
-/
namespace Asn1

/-- An actual parameter as `getNameArg` pairs it with its name (RemoveParameterizedTypes.fs:221-228). -/
inductive PSub where
  | type (t : PTy)
  | val (v : PVal)

abbrev PNames := List (String × PSub)

mutual
/-- `CloneValue` (RemoveParameterizedTypes.fs:131-153): a name that is a parameter becomes the
actual parameter, which must be a value. -/
def cloneVal (A : PNames) : PVal → Option PVal
  | .int i => some (.int i)
  | .str s => some (.str s)
  | .name md n =>
    match A.lookup n with
    | some (.val v) => some v
    | some (.type _) => none
    | none => some (.name md n)
  | .list vs => (cloneVals A vs).map .list
  | .record fs => (cloneFields A fs).map .record
  | .alt n v => (cloneVal A v).map (.alt n)
/-- `CloneValue` over the elements of a SEQUENCE OF value (RemoveParameterizedTypes.fs:150). -/
def cloneVals (A : PNames) : List PVal → Option (List PVal)
  | [] => some []
  | v :: vs => (cloneVal A v).bind fun v' => (cloneVals A vs).map (v' :: ·)
/-- `CloneValue` over the components of a SEQUENCE value (RemoveParameterizedTypes.fs:151). -/
def cloneFields (A : PNames) : List (String × PVal) → Option (List (String × PVal))
  | [] => some []
  | (n, v) :: fs => (cloneVal A v).bind fun v' => (cloneFields A fs).map ((n, v') :: ·)
end

mutual
/-- `CloneConstraint` (RemoveParameterizedTypes.fs:103-119). For `RootConstraint` the function calls
itself on the same constraint (line 116, `c` in place of `c1`) and never returns. -/
def cloneCon (A : PNames) : PCon → Option PCon
  | .val v => (cloneVal A v).map .val
  | .range a b ia ib => (cloneVal A a).bind fun a' => (cloneVal A b).map fun b' => .range a' b' ia ib
  | .ge a i => (cloneVal A a).map (.ge · i)
  | .le b i => (cloneVal A b).map (.le · i)
  | .size c => (cloneCon A c).map .size
  | .alpha c => (cloneCon A c).map .alpha
  | .union c d => (cloneCon A c).bind fun c' => (cloneCon A d).map (.union c')
  | .inter c d => (cloneCon A c).bind fun c' => (cloneCon A d).map (.inter c')
  | .allExcept c => (cloneCon A c).map .allExcept
  | .except c d => (cloneCon A c).bind fun c' => (cloneCon A d).map (.except c')
  | .root _ => none
  | .root2 c d => (cloneCon A c).bind fun c' => (cloneCon A d).map (.root2 c')
  | .withComp c => (cloneCon A c).map .withComp
  | .withComps cs => (cloneComps A cs).map .withComps
/-- `CloneNamedConstraint` over a WITH COMPONENTS constraint (RemoveParameterizedTypes.fs:119, 121-129). -/
def cloneComps (A : PNames) : List (String × PMark × Option PCon) →
    Option (List (String × PMark × Option PCon))
  | [] => some []
  | (n, m, o) :: cs => (cloneConOpt A o).bind fun o' => (cloneComps A cs).map ((n, m, o') :: ·)
/-- The constraint of one component, if any (RemoveParameterizedTypes.fs:126-128). -/
def cloneConOpt (A : PNames) : Option PCon → Option (Option PCon)
  | none => some none
  | some c => (cloneCon A c).map some
end

/-- `CloneConstraint` over a list of constraints (RemoveParameterizedTypes.fs:59). -/
def cloneCons (A : PNames) : List PCon → Option (List PCon)
  | [] => some []
  | c :: cs => (cloneCon A c).bind fun c' => (cloneCons A cs).map (c' :: ·)

/-- The DEFAULT value of a component in the copy (RemoveParameterizedTypes.fs:45-47). -/
def cloneOpt (A : PNames) : POpt → Option POpt
  | .default v => (cloneVal A v).map .default
  | o => some o

/-- `getNameArg` over the zipped lists, after the check of the number of actual parameters
(RemoveParameterizedTypes.fs:217-228). -/
def nameArgs : List PParam → List PSub → Option PNames
  | [], [] => some []
  | .type s :: ps, .type t :: as => (nameArgs ps as).map ((s, .type t) :: ·)
  | .value s :: ps, .val v :: as => (nameArgs ps as).map ((s, .val v) :: ·)
  | _, _ => none

/-- `f` on the types of the components, in order, with `g` on their optionality
(RemoveParameterizedTypes.fs:29-38, 42-48). -/
def mapChildren (f : PTy → Option PTy) (g : POpt → Option POpt) : List PChild → Option (List PChild)
  | [] => some []
  | .mk n t o :: cs => (f t).bind fun t' => (g o).bind fun o' =>
      (mapChildren f g cs).map (.mk n t' o' :: ·)

/-- `f` on every actual parameter, in order (RemoveParameterizedTypes.fs:216). -/
def mapArgs (f : PArg → Option PSub) : List PArg → Option (List PSub)
  | [] => some []
  | a :: as => (f a).bind fun a' => (mapArgs f as).map (a' :: ·)

mutual
/-- `CloneType` (RemoveParameterizedTypes.fs:41-101): the copy of a type in the body of a
parameterized type. `ps` are the names of the parameters of that type, `A` the actual ones. -/
def cloneType (r : PProg) (ps : List String) : Nat → PNames → PTy → Option PTy
  | 0, _, _ => none
  | n + 1, A, .mk k cs =>
    (cloneCons A cs).bind fun cs' =>
    match k with
    | .base b => some (.mk (.base b) cs')
    | .seq ch => (mapChildren (cloneType r ps n A) (cloneOpt A) ch).map fun ch' => .mk (.seq ch') cs'
    | .choice ch =>
      (mapChildren (cloneType r ps n A) (cloneOpt A) ch).map fun ch' => .mk (.choice ch') cs'
    | .seqOf t => (cloneType r ps n A t).map fun t' => .mk (.seqOf t') cs'
    | .ref md ts [] =>
      match A.lookup ts with
      | some (.type x) => (cloneCons A x.cons).map fun xc => .mk x.kind (xc ++ cs')
      | some (.val _) => none
      | none => some (.mk (.ref md ts []) cs')
    | .ref md ts (a :: as) =>
      (specRef r ps n A md ts (a :: as)).bind fun t =>
        (cloneCons A t.cons).map fun tc => .mk t.kind (tc ++ cs')
/-- `SpecializeRefType` (RemoveParameterizedTypes.fs:202-232): the copy of the body of the
parameterized type, for the given actual parameters. -/
def specRef (r : PProg) (ps : List String) : Nat → PNames → String → String → List PArg → Option PTy
  | 0, _, _, _, _ => none
  | n + 1, A, md, ts, args =>
    (r.find md ts).bind fun tas =>
    (mapArgs (specArg r ps n A) args).bind fun as =>
    (nameArgs tas.params as).bind fun A' =>
    cloneType r (tas.params.map PParam.name) n A' tas.body
/-- `SpecializeTemplatizedArgument` (RemoveParameterizedTypes.fs:204-214) on what the parser makes of
an actual parameter (CreateAsn1AstFromAntlrTree.fs:438-462): a reference with the name of one of
the parameters in force becomes `TemplateParameter`, without the constraints and actual
parameters written after it. -/
def specArg (r : PProg) (ps : List String) : Nat → PNames → PArg → Option PSub
  | 0, _, _ => none
  | _ + 1, _, .val v => some (.val v)
  | n + 1, A, .type t =>
    match t.kind with
    | .ref _ p _ =>
      if ps.contains p then A.lookup p else (specType r ps n t).map .type
    | _ => (specType r ps n t).map .type
/-- `SpecializeType` (RemoveParameterizedTypes.fs:155-200): only a type that is itself a reference is
looked at. -/
def specType (r : PProg) (ps : List String) : Nat → PTy → Option PTy
  | 0, _ => none
  | n + 1, .mk k cs =>
    match k with
    | .ref md ts (a :: as) =>
      (specRef r ps n [] md ts (a :: as)).map fun t => .mk t.kind (t.cons ++ cs)
    | .ref md ts [] =>
      (r.find md ts).bind fun tas =>
        if tas.params = [] then some (.mk (.ref md ts []) cs) else none
    | k => some (.mk k cs)
end

/-- `DoAsn1Type` (RemoveParameterizedTypes.fs:236-275): the type of an assignment without parameters. -/
def doType (r : PProg) : Nat → PTy → Option PTy
  | 0, _ => none
  | n + 1, .mk k cs =>
    match k with
    | .base b => some (.mk (.base b) cs)
    | .seq ch => (mapChildren (doType r n) some ch).map fun ch' => .mk (.seq ch') cs
    | .choice ch => (mapChildren (doType r n) some ch).map fun ch' => .mk (.choice ch') cs
    | .seqOf t => (doType r n t).map fun t' => .mk (.seqOf t') cs
    | .ref md ts args => specType r [] n (.mk (.ref md ts args) cs)

/-- `DoTypeAssignment` over the assignments of a module (RemoveParameterizedTypes.fs:279-287). -/
def doTasses (r : PProg) (n : Nat) : List PTas → Option (List PTas)
  | [] => some []
  | t :: ts => (doType r n t.body).bind fun b => (doTasses r n ts).map (⟨t.name, [], b⟩ :: ·)

/-- `DoModule` (RemoveParameterizedTypes.fs:302-336): the assignments with parameters go, the others
are rewritten. -/
def doModules (r : PProg) (n : Nat) : List PModule → Option (List PModule)
  | [] => some []
  | m :: ms => (doTasses r n (m.types.filter fun t => t.params.length == 0)).bind fun ts =>
      (doModules r n ms).map (⟨m.name, ts⟩ :: ·)

/-- `DoWork` (RemoveParameterizedTypes.fs:338-345), allowing `n` nested calls. -/
def removeParams (n : Nat) (r : PProg) : Option PProg := doModules r n r

end Asn1
