/-
What the references to determinants in an ACN grammar mean (the ACN manual: sections on `size`,
`present-when`, `determinant` and parameters), and the order in which a decoder meets the fields.

A type refers to a determinant by a path of names. If the first name is a parameter of the type or
of a type around it, the path means that parameter, the innermost one. Otherwise it starts at a
component of the nearest SEQUENCE around the type that has a component of that name, goes down
through components, and ends at a field that the ACN grammar has inserted.
-/
namespace Asn1

/-- Where a type or a field is: the names of components from the type assignment down; `"#"` goes
to the elements of a SEQUENCE OF. -/
abbrev SId := List String

/-- The type of a parameter. -/
inductive SPrm where
  | int
  | bool
  | null
  | ref (md ts : String)
deriving DecidableEq

structure SParam where
  name : String
  type : SPrm
deriving DecidableEq

/-- A type by its name, without references: what counts here. The numbers are the range of an
INTEGER and the lengths of an IA5String. -/
inductive SActual where
  | int (lo hi : Option Int)
  | enum (items : List String)
  | str (lo hi : Nat)
  | other

/-- A field that the ACN grammar inserts. INTEGER: the range of the values, and the numbers that
its encoding can hold (`none`: uPER, or a mapping function). -/
inductive SField where
  | int (lo hi : Option Int) (enc : Option (Int × Int))
  | null
  | bool
  | enum (items : List String)
  | str (lo hi : Nat)

/-- `size path` for a type with `min` to `max` elements. -/
structure SSize where
  path : List String
  min : Int
  max : Int

/-- One condition of `present-when` at an alternative of a CHOICE. -/
inductive SCond where
  | int (path : List String) (v : Int)
  | str (path : List String) (v : String)
deriving DecidableEq

/-- The path of a condition. -/
def SCond.path : SCond → List String
  | .int p _ => p
  | .str p _ => p

mutual
/-- A type with its ACN parameters. -/
inductive STy where
  | mk (params : List SParam) (kind : SKind)
/-- The parts of a type. Components that the ASN.1 grammar has are `asn`, with `some` for OPTIONAL
and in it the path of `present-when`; components that the ACN grammar inserts are `acn`. -/
inductive SKind where
  | leaf (size : Option SSize)
  | seqOf (size : Option SSize) (elem : STy)
  | seq (children : List SChild)
  | choice (det : Option (List String)) (alts : List SAlt)
  | ref (size : Option SSize) (args : List (List String)) (type : STy)
inductive SChild where
  | asn (name : String) (opt : Option (Option (List String))) (type : STy)
  | acn (name : String) (field : SField)
/-- An alternative of a CHOICE. -/
inductive SAlt where
  | mk (name : String) (conds : List SCond) (type : STy)
end

def STy.params : STy → List SParam
  | .mk ps _ => ps

def STy.kind : STy → SKind
  | .mk _ k => k

def SKind.size : SKind → Option SSize
  | .leaf s => s
  | .seqOf s _ => s
  | .ref s _ _ => s
  | _ => none

def SChild.name : SChild → String
  | .asn n _ _ => n
  | .acn n _ => n

def SAlt.name : SAlt → String
  | .mk n _ _ => n

def SAlt.conds : SAlt → List SCond
  | .mk _ c _ => c

/-- A type together with its place. -/
abbrev SPlace := SId × STy

/-- `Occ root around id t`: in `root` the type `t` is at `id`; `around` are the SEQUENCE, SEQUENCE
OF and CHOICE types around it, innermost first. A reference is at the same place as the type it
stands for. -/
inductive Occ (root : STy) : List SPlace → SId → STy → Prop where
  | root : Occ root [] [] root
  | ref {around id ps z args t} : Occ root around id (.mk ps (.ref z args t)) → Occ root around id t
  | child {around id ps ch n o t} : Occ root around id (.mk ps (.seq ch)) → SChild.asn n o t ∈ ch →
      Occ root ((id, .mk ps (.seq ch)) :: around) (id ++ [n]) t
  | elem {around id ps z t} : Occ root around id (.mk ps (.seqOf z t)) →
      Occ root ((id, .mk ps (.seqOf z t)) :: around) (id ++ ["#"]) t
  | alt {around id ps d alts n c t} : Occ root around id (.mk ps (.choice d alts)) →
      SAlt.mk n c t ∈ alts →
      Occ root ((id, .mk ps (.choice d alts)) :: around) (id ++ [n]) t

/-- What a path means. -/
inductive STarget where
  | param (owner : SId) (p : SParam)
  | field (id : SId) (f : SField)

/-- The parameter called `x` of a type. -/
def STy.param (t : STy) (x : String) : Option SParam := t.params.find? fun p => p.name == x

/-- A SEQUENCE with a component called `x`. -/
def STy.hasComponent (t : STy) (x : String) : Bool :=
  match t.kind with
  | .seq ch => ch.any fun c => c.name == x
  | _ => false

/-- `Reach strict s t path f`: from the SEQUENCE `t` the path leads to the inserted field `f`; if
`strict`, then without passing through an OPTIONAL component. -/
inductive Reach (strict : Bool) : STy → List String → SField → Prop where
  | here {ps ch x f} : SChild.acn x f ∈ ch → Reach strict (.mk ps (.seq ch)) [x] f
  | down {ps ch x o t y xs f} : SChild.asn x o t ∈ ch → (strict = true → o = none) →
      Reach strict t (y :: xs) f → Reach strict (.mk ps (.seq ch)) (x :: y :: xs) f
  | ref {ps z args t path f} : Reach strict t path f → Reach strict (.mk ps (.ref z args t)) path f

/-- `PathMeans strict scope around path target`: `scope` are the types whose parameters are visible,
`around` those whose components are, both innermost first. (The names after that of a parameter
do not count.) -/
inductive PathMeans (strict : Bool) (scope around : List SPlace) : List String → STarget → Prop where
  | param {x xs inner o t outer p} : scope = inner ++ (o, t) :: outer →
      (∀ q ∈ inner, q.2.param x = none) → t.param x = some p →
      PathMeans strict scope around (x :: xs) (.param o p)
  | field {x xs inner s t outer f} : (∀ q ∈ scope, q.2.param x = none) →
      around = inner ++ (s, t) :: outer → (∀ q ∈ inner, q.2.hasComponent x = false) →
      t.hasComponent x = true → Reach strict t (x :: xs) f →
      PathMeans strict scope around (x :: xs) (.field (s ++ x :: xs) f)

/-- What a reference wants from its determinant: a number of elements, whether a component is
present, that it is the number `v` or the text `v`, which alternative (by its name), or to be the
actual parameter for `p`. -/
inductive SNeed where
  | size (min max : Int)
  | flag
  | value (v : Int)
  | text (v : String)
  | names (l : List String)
  | arg (p : SParam)

/-- What a condition wants. -/
def SCond.need : SCond → SNeed
  | .int _ v => .value v
  | .str _ v => .text v

/-- `Refers root first who scope around path need`: the type at `who` in `root` refers to a
determinant. `first` is false for the conditions at other alternatives than the first of a
CHOICE. -/
inductive Refers (root : STy) : Bool → SId → List SPlace → List SPlace → List String → SNeed → Prop where
  | size {around id t z} : Occ root around id t → t.kind.size = some z →
      Refers root true id ((id, t) :: around) around z.path (.size z.min z.max)
  | present {around id ps ch n path t} : Occ root around id (.mk ps (.seq ch)) →
      SChild.asn n (some (some path)) t ∈ ch →
      Refers root true (id ++ [n]) ((id, .mk ps (.seq ch)) :: around)
        ((id, .mk ps (.seq ch)) :: around) path .flag
  | select {around id ps path alts} : Occ root around id (.mk ps (.choice (some path) alts)) →
      Refers root true id ((id, .mk ps (.choice (some path) alts)) :: around) around path
        (.names (alts.map SAlt.name))
  | when {around id ps d a alts c} : Occ root around id (.mk ps (.choice d (a :: alts))) →
      c ∈ a.conds →
      Refers root true id ((id, .mk ps (.choice d (a :: alts))) :: around) around c.path c.need
  | whenOther {around id ps d a alts b c} : Occ root around id (.mk ps (.choice d (a :: alts))) →
      b ∈ alts → c ∈ b.conds →
      Refers root false id ((id, .mk ps (.choice d (a :: alts))) :: around) around c.path c.need
  | arg {around id ps z args t path p} : Occ root around id (.mk ps (.ref z args t)) →
      (path, p) ∈ args.zip t.params →
      Refers root true id ((id, .mk ps (.ref z args t)) :: around) around path (.arg p)

/-- `v` is in the range. -/
def InRange (lo hi : Option Int) (v : Int) : Prop := (∀ l, lo = some l → l ≤ v) ∧ ∀ h, hi = some h → v ≤ h

/-- The kind of the determinant is the one that is needed. `R` gives the types by name. -/
def SuitsKind (R : String → String → Option SActual) : SNeed → STarget → Prop
  | .size _ _, .param _ p => p.type = .int ∨ ∃ md ts lo hi, p.type = .ref md ts ∧ R md ts = some (.int lo hi)
  | .size _ _, .field _ f => ∃ lo hi e, f = .int lo hi e
  | .flag, .param _ p => p.type = .bool
  | .flag, .field _ f => f = .bool
  | .value _, .param _ p => p.type = .int ∨ ∃ md ts lo hi, p.type = .ref md ts ∧ R md ts = some (.int lo hi)
  | .value _, .field _ f => ∃ lo hi e, f = .int lo hi e
  | .text _, .param _ p => ∃ md ts lo hi, p.type = .ref md ts ∧ R md ts = some (.str lo hi)
  | .text _, .field _ f => ∃ lo hi, f = .str lo hi
  | .names _, .param _ p => ∃ md ts l, p.type = .ref md ts ∧ R md ts = some (.enum l)
  | .names _, .field _ f => ∃ l, f = .enum l
  | .arg q, .param _ p => p.type = q.type
  | .arg q, .field _ f => (q.type = .int → ∃ lo hi e, f = .int lo hi e) ∧ (q.type = .bool → f = .bool) ∧
      (q.type = .null → f = .null)

/-- The determinant can have the values that are needed: the number of elements fits into the
encoding of the field, the number or the length of the text is in the range of the type, the
items of the ENUMERATED type are the names of the alternatives. -/
def SuitsValue (R : String → String → Option SActual) : SNeed → STarget → Prop
  | .size a b, .field _ (.int _ _ (some (lo, hi))) => lo ≤ a ∧ b ≤ hi
  | .value v, .field _ (.int lo hi _) => InRange lo hi v
  | .value v, .param _ ⟨_, .ref md ts⟩ => ∀ lo hi, R md ts = some (.int lo hi) → InRange lo hi v
  | .text v, .field _ (.str lo hi) => lo ≤ v.length ∧ v.length ≤ hi
  | .text v, .param _ ⟨_, .ref md ts⟩ => ∀ lo hi, R md ts = some (.str lo hi) → lo ≤ v.length ∧ v.length ≤ hi
  | .names l, .field _ (.enum k) => k = l
  | .names l, .param _ ⟨_, .ref md ts⟩ => ∀ k, R md ts = some (.enum k) → k = l
  | _, _ => True

/-- What the back end learns about a determinant: `AcnDependencyKind` (CheckLongReferences.fs:198, 236,
278, 313, 321, 328, 336, 351, 407, 413). -/
inductive SDepKind where
  | size (min max : Int)
  | flag
  | presence (path : List String)
  | presenceStr (path : List String)
  | names
  | arg (p : SParam)

/-- What the back end learns about a type: its determinant and the use of it, `AcnDependency`
(CheckLongReferences.fs:17, 36). -/
structure SDep where
  type : SId
  det : STarget
  kind : SDepKind

/-- What the back end has to learn about a reference. -/
def depKind (path : List String) : SNeed → SDepKind
  | .size a b => .size a b
  | .flag => .flag
  | .value _ => .presence path
  | .text _ => .presenceStr path
  | .names _ => .names
  | .arg p => .arg p

/-! ## The order of decoding -/

mutual
/-- `Run id t es`: the places that a decoder meets when it decodes the type `t` at `id`, in this
order. An absent component is met, but nothing in it. -/
inductive Run : SId → STy → List SId → Prop where
  | leaf {id ps z} : Run id (.mk ps (.leaf z)) [id]
  | ref {id ps z args t es} : Run id t es → Run id (.mk ps (.ref z args t)) es
  | seq {id ps ch es} : RunAll id ch es → Run id (.mk ps (.seq ch)) (id :: es)
  | seqOf {id ps z t es} : RunEach (id ++ ["#"]) t es → Run id (.mk ps (.seqOf z t)) (id :: es)
  | choice {id ps d alts n c t es} : SAlt.mk n c t ∈ alts → Run (id ++ [n]) t es →
      Run id (.mk ps (.choice d alts)) (id :: es)
/-- The components of a SEQUENCE at `id`. -/
inductive RunAll : SId → List SChild → List SId → Prop where
  | nil {id} : RunAll id [] []
  | acn {id n f ch es} : RunAll id ch es → RunAll id (.acn n f :: ch) ((id ++ [n]) :: es)
  | asn {id n o t ch es fs} : Run (id ++ [n]) t es → RunAll id ch fs →
      RunAll id (.asn n o t :: ch) (es ++ fs)
  | absent {id n o t ch es} : RunAll id ch es → RunAll id (.asn n (some o) t :: ch) ((id ++ [n]) :: es)
/-- Any number of elements. -/
inductive RunEach : SId → STy → List SId → Prop where
  | nil {id t} : RunEach id t []
  | cons {id t es fs} : Run id t es → RunEach id t fs → RunEach id t (es ++ fs)
end

mutual
/-- Components and alternatives have different names (another pass of the compiler sees to that). -/
def STy.distinct : STy → Bool
  | .mk _ k => k.distinct
def SKind.distinct : SKind → Bool
  | .leaf _ => true
  | .seqOf _ t => t.distinct
  | .seq ch => decide (ch.map SChild.name).Nodup && childrenDistinct ch
  | .choice _ alts => decide (alts.map SAlt.name).Nodup && altsDistinct alts
  | .ref _ _ t => t.distinct
def childrenDistinct : List SChild → Bool
  | [] => true
  | .asn _ _ t :: ch => t.distinct && childrenDistinct ch
  | .acn _ _ :: ch => childrenDistinct ch
def altsDistinct : List SAlt → Bool
  | [] => true
  | .mk _ _ t :: alts => t.distinct && altsDistinct alts
end

mutual
/-- Every reference gives as many actual parameters as the type has parameters; anything else is
an error before (AcnCreateFromAntlr.fs:1524-1526). -/
def STy.arity : STy → Bool
  | .mk _ k => k.arity
def SKind.arity : SKind → Bool
  | .leaf _ => true
  | .seqOf _ t => t.arity
  | .seq ch => childrenArity ch
  | .choice _ alts => altsArity alts
  | .ref _ args t => decide (args.length = t.params.length) && t.arity
def childrenArity : List SChild → Bool
  | [] => true
  | .asn _ _ t :: ch => t.arity && childrenArity ch
  | .acn _ _ :: ch => childrenArity ch
def altsArity : List SAlt → Bool
  | [] => true
  | .mk _ _ t :: alts => t.arity && altsArity alts
end

/-- Determinants with the numbers `σ` and the texts `τ` satisfy the condition. -/
def SCond.Holds (σ : List String → Int) (τ : List String → String) : SCond → Prop
  | .int p v => σ p = v
  | .str p v => τ p = v

/-- A place in a type that is itself at `id`. -/
def SPlace.shift (id : SId) (q : SPlace) : SPlace := (id ++ q.1, q.2)

/-- The same for what a path means. -/
def STarget.shift (id : SId) : STarget → STarget
  | .param o p => .param (id ++ o) p
  | .field i f => .field (id ++ i) f

/-- The same for what the back end learns. -/
def SDep.shift (id : SId) (d : SDep) : SDep := ⟨id ++ d.type, d.det.shift id, d.kind⟩

end Asn1
