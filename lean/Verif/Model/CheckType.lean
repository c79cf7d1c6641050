import Verif.Model.Notation
/-!
# Which types the front end accepts

`CheckType` and `isConstraintValid`, FrontEndAst/CheckAsn1.fs:400-604. `false` stands for an error message.

Left out: names that clash with keywords, modules and types; exports; included types and `MIN..MAX` (see `Model/Written`); time types.
-/
namespace Asn1

/-- `CanHaveRangeConstraint`, FrontEndAst/CheckAsn1.fs:401-407. -/
def NTy.canRange (t : NTy) : Bool :=
  match t.actual with
  | .int _ => true
  | .real _ => true
  | .str _ => true
  | _ => false

/-- `CanHaveSizeConstraint`, FrontEndAst/CheckAsn1.fs:409-414. -/
def NTy.canSize (t : NTy) : Bool :=
  match t.actual with
  | .str _ => true
  | .octets _ => true
  | .bits _ => true
  | .seqOf _ _ => true
  | _ => false

/-- `CanHaveFromConstraint`, FrontEndAst/CheckAsn1.fs:415-420. -/
def NTy.canFrom (t : NTy) : Bool :=
  match t.actual with
  | .str _ => true
  | _ => false

/-- The first component with the name, FrontEndAst/CheckAsn1.fs:475. -/
def NFields.child (nm : String) : NFields → Option (NOpt × NTy)
  | .nil => none
  | .cons n o t rest => if n == nm then some (o, t) else rest.child nm

/-- The part with the name, FrontEndAst/CheckAsn1.fs:429-435 and 475; the optionality only for components. -/
def NTy.child (t : NTy) (nm : String) : Option (Option NOpt × NTy) :=
  match t.actual with
  | .seq fs _ => (fs.child nm).map fun p => (some p.1, p.2)
  | .choice alts _ => (alts.typeOf nm).map fun u => (none, u)
  | _ => none

/-- The marks of WITH COMPONENTS, FrontEndAst/CheckAsn1.fs:482-488. -/
def markAccepted : Option NOpt → Mark → Bool
  | some (.default _), .absent => false
  | some .mandatory, .absent => false
  | some .mandatory, .present => false
  | none, .optional => false
  | _, _ => true

/-- The names in a WITH COMPONENTS, FrontEndAst/CheckAsn1.fs:472. -/
def XCs.listed : XCs → List String
  | .nil => []
  | .bare nm _ rest => nm :: rest.listed
  | .cons nm _ _ rest => nm :: rest.listed

/-- May the type have WITH COMPONENTS, FrontEndAst/CheckAsn1.fs:428-435. -/
def NTy.canComponents (t : NTy) : Bool :=
  match t.actual with
  | .seq _ _ => true
  | .choice _ _ => true
  | _ => false

mutual
/-- `isConstraintValid`, FrontEndAst/CheckAsn1.fs:400-489. -/
def conValid : XC → NTy → Bool
  | .single v, t => checkValueType t v
  | .range v1 v2 _ _, t => t.canRange && (checkValueType t v1 && checkValueType t v2)
  | .valMax v1 _, t => t.canRange && checkValueType t v1
  | .minVal v2 _, t => t.canRange && checkValueType t v2
  | .size c, t => t.canSize && conValid c (.int [])
  | .alphabet c, t => t.canFrom && conValid c t
  | .union c d, t => conValid c t && conValid d t
  | .inter c d, t => conValid c t && conValid d t
  | .allExcept c, t => conValid c t
  | .except c d, t => conValid c t && conValid d t
  | .root c, t => conValid c t
  | .root2 c d, t => conValid c t && conValid d t
  | .component c, t => match t.actual with
    | .seqOf e _ => conValid c e
    | _ => false
  | .components ncs, t => t.canComponents && (decide ncs.listed.Nodup && namedValid ncs t)
/-- `checkNamedConstraint`, FrontEndAst/CheckAsn1.fs:473-489. -/
def namedValid : XCs → NTy → Bool
  | .nil, _ => true
  | .bare nm m rest, t => (match t.child nm with
    | some (o, _) => markAccepted o m
    | none => false) && namedValid rest t
  | .cons nm m c rest, t => (match t.child nm with
    | some (o, u) => conValid c u && markAccepted o m
    | none => false) && namedValid rest t
end

/-- `Seq.tryFind`, where the test can raise an error. -/
def findB {α : Type} (f : α → Option Bool) : List α → Option Bool
  | [] => some false
  | x :: rest => match f x with
    | some false => findB f rest
    | r => r

/-- The names of the alternatives. -/
def NAlts.names : NAlts → List String
  | .nil => []
  | .cons n _ rest => n :: rest.names

mutual
/-- `CheckType`, FrontEndAst/CheckAsn1.fs:497-604, of a type and of the type assignments that it refers to. All numbers of ENUMERATED
items are taken as written (C87 says which ones are given otherwise). The value of an item is a name; whether there is a
value assignment of this name does not matter to `IsValueAllowed`. -/
def checkType : NTy → Bool
  | .seq fs cs => decide fs.names.Nodup && (checkFields fs && (checkDefaults fs && cs.all fun c => conValid c (.seq fs cs)))
  | .choice alts cs => decide (alts.names.map String.toLower).Nodup && (checkAlternatives alts && cs.all fun c => conValid c (.choice alts cs))
  | .seqOf t cs => checkType t && cs.all fun c => conValid c (.seqOf t cs)
  | .enum items cs => decide (items.map (·.1)).Nodup && (decide (items.map (·.2)).Nodup &&
      (findB (fun p => allB (fun c => isAllowed true none c (.ident "" p.1)) cs) items == some true && cs.all fun c => conValid c (.enum items cs)))
  | .ref md tas t cs => checkType t && cs.all fun c => conValid c (.ref md tas t cs)
  | .int cs => cs.all fun c => conValid c (.int cs)
  | .real cs => cs.all fun c => conValid c (.real cs)
  | .bool cs => cs.all fun c => conValid c (.bool cs)
  | .null cs => cs.all fun c => conValid c (.null cs)
  | .octets cs => cs.all fun c => conValid c (.octets cs)
  | .bits cs => cs.all fun c => conValid c (.bits cs)
  | .str cs => cs.all fun c => conValid c (.str cs)
  | .oid cs => cs.all fun c => conValid c (.oid cs)
/-- The types of the components, FrontEndAst/CheckAsn1.fs:531. -/
def checkFields : NFields → Bool
  | .nil => true
  | .cons _ _ t rest => checkType t && checkFields rest
/-- The DEFAULT values, FrontEndAst/CheckAsn1.fs:532-549. -/
def checkDefaults : NFields → Bool
  | .nil => true
  | .cons _ (.default v) t rest => acceptsDefault t v && checkDefaults rest
  | .cons _ _ _ rest => checkDefaults rest
/-- The types of the alternatives, FrontEndAst/CheckAsn1.fs:531. -/
def checkAlternatives : NAlts → Bool
  | .nil => true
  | .cons _ t rest => checkType t && checkAlternatives rest
end

end Asn1
