import Verif.Spec.AcnScope
/-
How the compiler resolves references to determinants: FrontEndAst/CheckLongReferences.fs. `none`
stands for an error message. Locations and the `present-when` expressions over ASN.1 fields
(lines 358-383, see `AcnExpr`) are left out.
-/
namespace Asn1

/-- `Map.ofList` of the places with their numbers (CheckLongReferences.fs:472): the last number
counts. -/
def posFrom (n : Nat) : List SId → SId → Option Nat
  | [], _ => none
  | a :: l, id =>
    match posFrom (n + 1) l id with
    | some k => some k
    | none => if a = id then some n else none

mutual
/-- `GetReferences` (CheckLongReferences.fs:442-457); a reference and its resolved type have the same
id (AcnCreateFromAntlr.fs:1569, `curPath`). -/
def places (id : SId) : STy → List SId
  | .mk _ (.leaf _) => [id]
  | .mk _ (.seqOf _ t) => id :: places (id ++ ["#"]) t
  | .mk _ (.seq ch) => id :: placesCh id ch
  | .mk _ (.choice _ alts) => id :: placesAlt id alts
  | .mk _ (.ref _ _ t) => places id t
/-- The components (CheckLongReferences.fs:448-451). -/
def placesCh (id : SId) : List SChild → List SId
  | [] => []
  | .asn n _ t :: ch => places (id ++ [n]) t ++ placesCh id ch
  | .acn n _ :: ch => (id ++ [n]) :: placesCh id ch
/-- The alternatives (CheckLongReferences.fs:454-455). -/
def placesAlt (id : SId) : List SAlt → List SId
  | [] => []
  | .mk n _ t :: alts => places (id ++ [n]) t ++ placesAlt id alts
end

/-- `addAcnChild` (CheckLongReferences.fs:19-36). -/
def addField (pos : List SId) (st : List SDep) (who fid : SId) (f : SField) (d : SDepKind) :
    Option (List SDep) :=
  match posFrom 0 pos fid, posFrom 0 pos who with
  | some i, some j => if j < i then none else some (⟨who, .field fid f, d⟩ :: st)
  | _, _ => none

/-- `findSeq` after the filter (CheckLongReferences.fs:69-84). -/
def findSeq (x : String) : STy → Bool
  | .mk _ (.seq ch) => ch.any fun c => c.name == x
  | .mk _ (.ref _ _ t) => findSeq x t
  | _ => false

/-- The filter before `findSeq`: SEQUENCE types and references to them (CheckLongReferences.fs:77-84). -/
def seqOrRef : STy → Bool
  | .mk _ (.seq _) => true
  | .mk _ (.ref _ _ (.mk _ (.seq _))) => true
  | _ => false

mutual
/-- `checkSeqWithPath` (CheckLongReferences.fs:85-107): the field at the end of the path. `s` is the id
of the type; the id of a component is that of its SEQUENCE and its name. -/
def walk (s : SId) : STy → List String → Option (SId × SField)
  | .mk _ (.seq ch), path => walkCh s ch path
  | .mk _ (.ref _ _ t), path => walk s t path
  | _, _ => none
/-- The component with the first name (CheckLongReferences.fs:91-105). -/
def walkCh (s : SId) : List SChild → List String → Option (SId × SField)
  | _, [] => none
  | [], _ => none
  | .acn n f :: ch, x :: xs =>
    if n = x then (if xs.isEmpty then some (s ++ [n], f) else none) else walkCh s ch (x :: xs)
  | .asn n _ t :: ch, x :: xs =>
    if n = x then (if xs.isEmpty then none else walk (s ++ [n]) t xs) else walkCh s ch (x :: xs)
end

/-- `List.distinctBy` on the names of parameters (CheckLongReferences.fs:299). -/
def distinctPrms (seen : List String) : List (SId × SParam) → List (SId × SParam)
  | [] => []
  | (o, p) :: l => if seen.contains p.name then distinctPrms seen l
      else (o, p) :: distinctPrms (p.name :: seen) l

/-- `visibleParameters` (CheckLongReferences.fs:292-299). -/
def visible (parents : List SPlace) (me : SPlace) : List (SId × SParam) :=
  distinctPrms [] ((parents ++ [me]).reverse.flatMap fun q => q.2.params.map fun p => (q.1, p))

/-- `checkRelativePath` (CheckLongReferences.fs:38-112). -/
def checkPath (pos : List SId) (st : List SDep) (parents : List SPlace) (who : SId)
    (vis : List (SId × SParam)) (path : List String) (checkPrm : SParam → Option SDepKind)
    (checkField : SField → Option SDepKind) : Option (List SDep) :=
  match path with
  | [] => none
  | x :: xs =>
    match vis.find? fun q => q.2.name == x with
    | some (o, p) => (checkPrm p).map fun d => ⟨who, .param o p, d⟩ :: st
    | none =>
      match (parents.reverse.filter fun q => seqOrRef q.2).find? fun q => findSeq x q.2 with
      | none => none
      | some (s, t) =>
        (walk s t (x :: xs)).bind fun r => (checkField r.2).bind fun d => addField pos st who r.1 r.2 d

/-- `checkParamIsActuallyInteger` (CheckLongReferences.fs:115-128): the range of the INTEGER type. -/
def actualInt (R : String → String → Option SActual) (md ts : String) :
    Option (Option Int × Option Int) :=
  match R md ts with
  | some (.int lo hi) => some (lo, hi)
  | _ => none

/-- The value of a condition against `uperRange` (CheckLongReferences.fs:201-206, 215-220). -/
def withinRange (lo hi : Option Int) (v : Int) : Bool :=
  (match lo with | some l => decide (l ≤ v) | none => true) &&
  (match hi with | some h => decide (v ≤ h) | none => true)

/-- `sizeReference` (CheckLongReferences.fs:130-156). -/
def sizeRef (R : String → String → Option SActual) (pos : List SId) (st : List SDep)
    (parents : List SPlace) (who : SId) (vis : List (SId × SParam)) : Option SSize → Option (List SDep)
  | none => some st
  | some z => checkPath pos st parents who vis z.path
      (fun p => match p.type with
        | .int => some (.size z.min z.max)
        | .ref md ts => (actualInt R md ts).map fun _ => .size z.min z.max
        | _ => none)
      (fun f => match f with
        | .int _ _ none => some (.size z.min z.max)
        | .int _ _ (some (lo, hi)) => if lo ≤ z.min ∧ z.max ≤ hi then some (.size z.min z.max) else none
        | _ => none)

/-- The kind of a condition (AcnGenericTypes.fs:288-291). -/
def SCond.kindNo : SCond → Nat
  | .int _ _ => 1
  | .str _ _ => 2

/-- `valueAsString` (AcnGenericTypes.fs:276-279). -/
def SCond.valueText : SCond → String
  | .int _ v => toString v
  | .str _ v => v

/-- `List.sortBy` on the paths written with dots (CheckLongReferences.fs:167, 179, 182): stable. -/
def insertBy {α : Type} (key : α → String) (a : α) : List α → List α
  | [] => [a]
  | b :: l => if key b < key a then b :: insertBy key a l else a :: b :: l

/-- `List.sortBy` (CheckLongReferences.fs:167, 179, 182), by insertion. -/
def sortBy {α : Type} (key : α → String) : List α → List α
  | [] => []
  | a :: l => insertBy key a (sortBy key l)

/-- `RelativePath.AsString` (AcnGenericTypes.fs:14-15). -/
def pathText (p : List String) : String := ".".intercalate p

/-- The conditions of one alternative with values, sorted (CheckLongReferences.fs:167). -/
def condKeys (cs : List SCond) : List (Nat × String × String) :=
  sortBy (fun k => k.2.1) (cs.map fun c => (c.kindNo, pathText c.path, c.valueText))

/-- Kinds and paths of the conditions of one alternative, sorted (CheckLongReferences.fs:179, 182). -/
def condPaths (cs : List SCond) : List (Nat × List String) :=
  (sortBy (fun c => pathText c.path) cs).map fun c => (c.kindNo, c.path)

/-- One condition (CheckLongReferences.fs:192-248). -/
def checkCond (R : String → String → Option SActual) (pos : List SId) (parents : List SPlace)
    (who : SId) (vis : List (SId × SParam)) (st : List SDep) : SCond → Option (List SDep)
  | .int path v => checkPath pos st parents who vis path
      (fun p => match p.type with
        | .int => some (.presence path)
        | .ref md ts => (actualInt R md ts).bind fun r =>
            if withinRange r.1 r.2 v then some (.presence path) else none
        | _ => none)
      (fun f => match f with
        | .int lo hi _ => if withinRange lo hi v then some (.presence path) else none
        | _ => none)
  | .str path v => checkPath pos st parents who vis path
      (fun p => match p.type with
        | .ref md ts => match R md ts with
          | some (.str lo hi) =>
            if lo ≤ v.length ∧ v.length ≤ hi then some (.presenceStr path) else none
          | _ => none
        | _ => none)
      (fun f => match f with
        | .str lo hi => if lo ≤ v.length ∧ v.length ≤ hi then some (.presenceStr path) else none
        | _ => none)

/-- The conditions of the first alternative, in order (CheckLongReferences.fs:252). -/
def checkConds (R : String → String → Option SActual) (pos : List SId) (parents : List SPlace)
    (who : SId) (vis : List (SId × SParam)) (st : List SDep) : List SCond → Option (List SDep)
  | [] => some st
  | c :: cs => (checkCond R pos parents who vis st c).bind fun st' =>
      checkConds R pos parents who vis st' cs

/-- `checkChoicePresentWhen` (CheckLongReferences.fs:159-252). -/
def choiceWhen (R : String → String → Option SActual) (pos : List SId) (st : List SDep)
    (parents : List SPlace) (who : SId) (vis : List (SId × SParam)) (det : Option (List String))
    (alts : List SAlt) : Option (List SDep) :=
  match det with
  | some _ => if alts.all fun a => a.conds.isEmpty then some st else none
  | none =>
    if ((alts.filter fun a => !a.conds.isEmpty).map fun a => condKeys a.conds).Nodup then
      match alts with
      | [] => some st
      | a :: rest =>
        if rest.all fun b => condPaths b.conds == condPaths a.conds then
          checkConds R pos parents who vis st a.conds
        else none
    else none

/-- `choiceEnumReference` (CheckLongReferences.fs:256-287). -/
def choiceEnum (R : String → String → Option SActual) (pos : List SId) (st : List SDep)
    (parents : List SPlace) (who : SId) (vis : List (SId × SParam)) (alts : List SAlt) :
    Option (List String) → Option (List SDep)
  | none => some st
  | some path => checkPath pos st parents who vis path
      (fun p => match p.type with
        | .ref md ts => match R md ts with
          | some (.enum items) => if alts.map SAlt.name = items then some .names else none
          | _ => none
        | _ => none)
      (fun f => match f with
        | .enum items => if alts.map SAlt.name = items then some .names else none
        | _ => none)

/-- `checkArgument` over the zipped lists (CheckLongReferences.fs:409-422, 431-432). -/
def checkArgs (pos : List SId) (parents : List SPlace) (who : SId) (vis : List (SId × SParam))
    (st : List SDep) : List (List String × SParam) → Option (List SDep)
  | [] => some st
  | (path, q) :: l =>
    (checkPath pos st parents who vis path
      (fun p => if p.type = q.type then some (.arg q) else none)
      (fun f => match f, q.type with
        | .int _ _ _, .int => some (.arg q)
        | .null, .null => some (.arg q)
        | .bool, .bool => some (.arg q)
        | _, .ref _ _ => some (.arg q)
        | _, _ => none)).bind fun st' => checkArgs pos parents who vis st' l

mutual
/-- `checkType` (CheckLongReferences.fs:289-438). -/
def checkTy (R : String → String → Option SActual) (pos : List SId) (parents : List SPlace)
    (id : SId) (st : List SDep) : STy → Option (List SDep)
  | .mk ps (.leaf z) => sizeRef R pos st parents id (visible parents (id, .mk ps (.leaf z))) z
  | .mk ps (.seqOf z t) =>
    (sizeRef R pos st parents id (visible parents (id, .mk ps (.seqOf z t))) z).bind fun st' =>
      checkTy R pos (parents ++ [(id, .mk ps (.seqOf z t))]) (id ++ ["#"]) st' t
  | .mk ps (.seq ch) =>
    checkCh R pos (visible parents (id, .mk ps (.seq ch))) (parents ++ [(id, .mk ps (.seq ch))]) id st ch
  | .mk ps (.choice d alts) =>
    (choiceWhen R pos st parents id (visible parents (id, .mk ps (.choice d alts))) d alts).bind fun st1 =>
    (choiceEnum R pos st1 parents id (visible parents (id, .mk ps (.choice d alts))) alts d).bind fun st2 =>
      checkAlts R pos (parents ++ [(id, .mk ps (.choice d alts))]) id st2 alts
  | .mk ps (.ref z args t) =>
    (sizeRef R pos st parents id (visible parents (id, .mk ps (.ref z args t))) z).bind fun st1 =>
    if args.length = t.params.length then
      (checkArgs pos parents id (visible parents (id, .mk ps (.ref z args t))) st1
        (args.zip t.params)).bind fun st2 => checkTy R pos parents id st2 t
    else some st1
/-- The components of a SEQUENCE: their `present-when`, then their types
(CheckLongReferences.fs:339-386). -/
def checkCh (R : String → String → Option SActual) (pos : List SId) (vis : List (SId × SParam))
    (parents : List SPlace) (id : SId) (st : List SDep) : List SChild → Option (List SDep)
  | [] => some st
  | .acn _ _ :: ch => checkCh R pos vis parents id st ch
  | .asn n o t :: ch =>
    (match o with
      | some (some path) => checkPath pos st parents (id ++ [n]) vis path
          (fun p => if p.type = SPrm.bool then some .flag else none)
          (fun f => match f with | .bool => some .flag | _ => none)
      | _ => some st).bind fun st1 =>
    (checkTy R pos parents (id ++ [n]) st1 t).bind fun st2 => checkCh R pos vis parents id st2 ch
/-- The alternatives of a CHOICE (CheckLongReferences.fs:390-391). -/
def checkAlts (R : String → String → Option SActual) (pos : List SId) (parents : List SPlace)
    (id : SId) (st : List SDep) : List SAlt → Option (List SDep)
  | [] => some st
  | .mk n _ t :: alts =>
    (checkTy R pos parents (id ++ [n]) st t).bind fun st1 => checkAlts R pos parents id st1 alts
end

/-- `checkAst` for one type assignment (CheckLongReferences.fs:471-473): the dependencies that it
adds to those of the assignments before. -/
def checkTas (R : String → String → Option SActual) (root : STy) : Option (List SDep) :=
  checkTy R (places [] root) [] [] [] root

end Asn1
