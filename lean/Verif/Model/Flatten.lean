import Verif.Spec.Flatten
/-!
# The tree without COMPONENTS OF and without shorthands of value notation

FrontEndAst/MapParamAstToNonParamAst.fs. `none` stands for an error message. The functions of the code call
themselves on what names refer to; the number counts down these calls, so that the model is defined also where
the code would not end. Left out: constraints (the values in them are mapped by the same function), DEFAULT
values (the same), identifiers of scopes, locations, time types, parameters (removed before, C101), named bits
given by a reference to an INTEGER value.
-/
namespace Asn1

/-- `getSequenceChildren`, MapParamAstToNonParamAst.fs:104-115. -/
def GEnv.children (P : GEnv) : Nat → List GChild → Option (List (String × GTy))
  | 0, _ => none
  | n + 1, cs => (cs.mapM fun (c : GChild) => match c with
      | .comp nm t => some [(nm, t)]
      | .compsOf md nm => match P.type md nm with
        | some (.seq inner) => GEnv.children P n inner
        | _ => none).map List.flatten

/-- `getActualKindAndModule`, MapParamAstToNonParamAst.fs:126-134, and `getActualKind`, 117-122. -/
def GEnv.actual (P : GEnv) : Nat → GTy → Option String → Option (GTy × Option String)
  | n, .ref md nm, _ => match n with
    | 0 => none
    | n + 1 => match P.type md nm with
      | some t => GEnv.actual P n t (some md)
      | none => none
  | _, t, src => some (t, src)

/-- The position of a named bit, MapParamAstToNonParamAst.fs:165-177. -/
def bitPosition (names : List (String × Nat)) : GVal → Option Nat
  | .ref _ nm => (names.find? fun p => p.1 == nm).map (·.2)
  | _ => none

/-- The greatest element of a set (`MaximumElement`), an exception if there is none. -/
def maxPosition : List Nat → Option Nat
  | [] => none
  | p :: ps => some (ps.foldl max p)

/-- `maxValue`, MapParamAstToNonParamAst.fs:180-186. `b - 1u` is computed with 32 bits. -/
def lastPosition (size : Option (Nat × Nat)) (ps : List Nat) : Option Nat :=
  match size with
  | some (_, b) => some ((b + (2 ^ 32 - 1)) % 2 ^ 32)
  | none => maxPosition ps

/-- The string of bits for a list of named bits, MapParamAstToNonParamAst.fs:160-190. -/
def flagsBits (names : List (String × Nat)) (size : Option (Nat × Nat)) (vs : List GVal) : Option (List Bool) := do
  let ps ← vs.mapM (bitPosition names)
  let last ← lastPosition size ps
  some ((List.range (last + 1)).map fun i => ps.contains i)

/-- A part of a character string, MapParamAstToNonParamAst.fs:191-206. -/
def stringPart : GVal → Option (List Nat)
  | .str s => some s
  | .ref _ nm =>
    if nm = "cr" then some [13] else if nm = "lf" then some [10] else if nm = "ht" then some [9]
    else if nm = "nul" then some [0] else none
  | _ => none

/-- `MapAsn1Value`, MapParamAstToNonParamAst.fs:125-240. -/
def GEnv.mapValue (P : GEnv) : Nat → GTy → GVal → Option HVal
  | 0, _, _ => none
  | n + 1, t, v => match P.actual n t none with
    | none => none
    | some (kind, last) => match v with
      | .lit a => some (.lit a)
      | .bits b => some (.bits b)
      | .str s => some (.str s)
      | .ref md nm => match kind, last with
        | .enum _, some s => some (.ref s nm)
        | _, _ => some (.ref md nm)
      | .list vs => match kind with
        | .seqOf c => (vs.mapM (GEnv.mapValue P n c)).map .list
        | .bits names size => (flagsBits names size vs).map .bits
        | .str true => (vs.mapM stringPart).map fun l => .str l.flatten
        | _ => none
      | .named fs => match kind with
        | .seq cs => match P.children n cs with
          | some l => (fs.mapM fun (p : String × GVal) => match l.find? fun (c : String × GTy) => c.1 == p.1 with
            | some c => (GEnv.mapValue P n c.2 p.2).map fun w => (p.1, w)
            | none => none).map .named
          | none => none
        | _ => none
      | .chosen nm w => match kind with
        | .choice alts => match alts.find? fun (c : String × GTy) => c.1 == nm with
          | some c => (GEnv.mapValue P n c.2 w).map (.chosen nm)
          | none => none
        | _ => none
      | .empty => match kind with
        | .seq _ => some (.named [])
        | .seqOf _ => some (.list [])
        | _ => none

/-- `MapAsn1Type`, MapParamAstToNonParamAst.fs:349-388, and `MapChildInfo`, 252-264. -/
def GEnv.mapType (P : GEnv) : Nat → GTy → Option HTy
  | 0, _ => none
  | n + 1, t => match t with
    | .other k => some (.other k)
    | .bits names size => some (.bits names size)
    | .str ia5 => some (.str ia5)
    | .enum items => some (.enum items)
    | .seq cs => match P.children n cs with
      | some l => (l.mapM fun (c : String × GTy) => (GEnv.mapType P n c.2).map fun u => (c.1, u)).map .seq
      | none => none
    | .seqOf c => (GEnv.mapType P n c).map .seqOf
    | .choice alts => (alts.mapM fun (c : String × GTy) => (GEnv.mapType P n c.2).map fun u => (c.1, u)).map .choice
    | .ref md nm => some (.ref md nm)

/-- `DoWork`, `MapFile`, `MapModule`, `MapTypeAssignment` and `MapValueAssignment`,
MapParamAstToNonParamAst.fs:390-462: all assignments. -/
def GEnv.mapRoot (P : GEnv) (n : Nat) : Option HEnv := do
  let ts ← P.types.mapM fun p => (P.mapType n p.2).map fun u => (p.1, u)
  let vs ← P.values.mapM fun p => match P.mapType n p.2.1, P.mapValue n p.2.1 p.2.2 with
    | some u, some w => some (p.1, (u, w))
    | _, _ => none
  some { types := ts, values := vs }

end Asn1
