/-!
# OBJECT IDENTIFIER and RELATIVE-OID values

What X.680 (32 and 33) and X.660 say about the numbers that such a value stands for. Nothing here mentions what the
compiler does with them.
-/
namespace Asn1

/-- A component of the value as it is written: `5`, `name(5)`, `name(value)`, `name`, `Module.value`. A module stands for
the one in which a value assignment of the name is found. -/
inductive OComp where
  | num (n : Int)
  | nameNum (nm : String) (n : Int)
  | nameRef (nm : String) (md v : String)
  | name (md nm : String)
  | ext (md nm : String)

/-- The value of a value assignment: an INTEGER, an OBJECT IDENTIFIER or RELATIVE-OID (`rel`), the name of another value, or
something else. -/
inductive OVal where
  | int (i : Int)
  | oid (rel : Bool) (cs : List OComp)
  | alias (md nm : String)
  | other

/-- All value assignments. -/
abbrev OEnv := List ((String × String) × OVal)

def OVal.IsAlias : OVal → Prop
  | .alias _ _ => True
  | _ => False

/-- The name stands for the value, which may be assigned to it through other names. -/
inductive OEnv.RefersTo (E : OEnv) : String → String → OVal → Prop
  | this {md nm : String} {v : OVal} : E.lookup (md, nm) = some v → ¬ v.IsAlias → RefersTo E md nm v
  | name {md nm md' nm' : String} {v : OVal} :
      E.lookup (md, nm) = some (.alias md' nm') → RefersTo E md' nm' v → RefersTo E md nm v

/-- X.660 A.2 to A.4: the names that may stand without a number, with the numbers that lead to them and their own. -/
def x660 : List (List Int × String × Int) :=
  [([], "itu-t", 0), ([], "ccitt", 0), ([], "iso", 1), ([], "joint-iso-itu-t", 2), ([], "joint-iso-ccitt", 2),
   ([0], "recommendation", 0), ([0], "question", 1), ([0], "administration", 2), ([0], "network-operator", 3),
   ([0], "identified-organization", 4),
   ([1], "standard", 0), ([1], "member-body", 2), ([1], "identified-organization", 3)] ++
  ["a", "b", "c", "d", "e", "f", "g", "h", "i", "j", "k", "l", "m", "n", "o", "p", "q", "r", "s", "t", "u", "v", "w",
    "x", "y", "z"].zipIdx.map fun p => ([0, 0], p.1, (p.2 : Int) + 1)

/-- The component is the name of a value: `Module.value`, or a name that does not stand for a number after the numbers
`pre`. In a RELATIVE-OID names never stand for numbers by themselves. -/
def OComp.Names (rel : Bool) (pre : List Int) : OComp → Bool → String → String → Prop
  | .name md nm, _, md', nm' => md = md' ∧ nm = nm' ∧ (rel = true ∨ ∀ k, (pre, nm, k) ∉ x660)
  | .ext md nm, all, md', nm' => md = md' ∧ nm = nm' ∧ all = true
  | _, _, _, _ => False

/-- The components stand for the numbers after the numbers `pre`. `byName`: everything before was a name that stands for a
number. `all`: the whole notation of X.680; otherwise without `Module.value`, without INTEGER values as components of
their own, and with names that stand for numbers only after such names.

A choice where X.680 is silent: after a number (not a name) a name for which there is also a value assignment stands for
nothing. -/
inductive OEnv.Denotes (E : OEnv) (all : Bool) : Bool → List Int → Bool → List OComp → List Int → Prop
  | nil {rel : Bool} {pre : List Int} {b : Bool} : Denotes E all rel pre b [] []
  | num {rel : Bool} {pre : List Int} {b : Bool} {n : Int} {cs : List OComp} {l : List Int} :
      0 ≤ n → Denotes E all rel (pre ++ [n]) false cs l → Denotes E all rel pre b (.num n :: cs) (n :: l)
  | nameNum {rel : Bool} {pre : List Int} {b : Bool} {nm : String} {n : Int} {cs : List OComp} {l : List Int} :
      0 ≤ n → Denotes E all rel (pre ++ [n]) false cs l → Denotes E all rel pre b (.nameNum nm n :: cs) (n :: l)
  | nameRef {rel : Bool} {pre : List Int} {b : Bool} {nm md v : String} {n : Int} {cs : List OComp} {l : List Int} :
      E.RefersTo md v (.int n) → 0 ≤ n → Denotes E all rel (pre ++ [n]) false cs l →
      Denotes E all rel pre b (.nameRef nm md v :: cs) (n :: l)
  | registered {pre : List Int} {b : Bool} {md nm : String} {k : Int} {cs : List OComp} {l : List Int} :
      (pre, nm, k) ∈ x660 → (b = true ∨ (all = true ∧ E.lookup (md, nm) = none)) →
      Denotes E all false (pre ++ [k]) b cs l → Denotes E all false pre b (.name md nm :: cs) (k :: l)
  | relValue {rel : Bool} {pre : List Int} {b : Bool} {c : OComp} {md nm : String} {cs' cs : List OComp} {l' l : List Int} :
      c.Names rel pre all md nm → E.RefersTo md nm (.oid true cs') → Denotes E all true [] true cs' l' →
      Denotes E all rel (pre ++ l') false cs l → Denotes E all rel pre b (c :: cs) (l' ++ l)
  /-- An OBJECT IDENTIFIER value only comes first. -/
  | oidValue {c : OComp} {md nm : String} {cs' cs : List OComp} {l' l : List Int} :
      c.Names false [] all md nm → E.RefersTo md nm (.oid false cs') → Denotes E all false [] true cs' l' →
      Denotes E all false l' false cs l → Denotes E all false [] true (c :: cs) (l' ++ l)
  | intValue {rel : Bool} {pre : List Int} {b : Bool} {c : OComp} {md nm : String} {n : Int} {cs : List OComp} {l : List Int} :
      all = true → c.Names rel pre all md nm → E.RefersTo md nm (.int n) → 0 ≤ n →
      Denotes E all rel (pre ++ [n]) false cs l → Denotes E all rel pre b (c :: cs) (n :: l)

/-- The value stands for the numbers. -/
def OEnv.Means (E : OEnv) (rel : Bool) (cs : List OComp) (l : List Int) : Prop := E.Denotes true rel [] true cs l

/-- The value stands for the numbers and is written in the part of the notation that the compiler knows. -/
def OEnv.MeansPlainly (E : OEnv) (rel : Bool) (cs : List OComp) (l : List Int) : Prop := E.Denotes false rel [] true cs l

/-- No value has one of the names `itu-t`, `ccitt`, `iso`, `joint-iso-itu-t` and `joint-iso-ccitt`. -/
def OEnv.RootsFree (E : OEnv) : Prop := ∀ md nm k, ([], nm, k) ∈ x660 → E.lookup (md, nm) = none

end Asn1
