/-
Parameterized types (ITU-T X.683) and what they mean: which values the instance of a
parameterized type has, when the references to the parameters stand for the actual parameters.
Nothing here is taken from the compiler; compare X.683 clauses 8 and 9.
-/
namespace Asn1

/-! ## Abstract values -/

mutual
/-- An abstract value of some ASN.1 type: a number, a character string, a list, the components
of a SEQUENCE by name, or one alternative of a CHOICE. -/
inductive PV where
  | int (i : Int)
  | str (s : List Nat)
  | list (l : List PV)
  | record (fs : List (String × PField))
  | alt (n : String) (v : PV)
/-- A component: present with a value, absent, or absent and standing for a default value. -/
inductive PField where
  | present (v : PV)
  | absent
  | defaulted (v : PV)
end

/-! ## The notation -/

/-- Value notation (ParameterizedAsn1Ast `Asn1Value`, FrontEndAst/ParameterizedAsn1Ast.fs:178-201):
literals, names, lists, components and alternatives. -/
inductive PVal where
  | int (i : Int)
  | str (s : List Nat)
  | name (md n : String)
  | list (vs : List PVal)
  | record (fs : List (String × PVal))
  | alt (n : String) (v : PVal)

/-- The presence mark of a component in WITH COMPONENTS. -/
inductive PMark where
  | none | present | absent
deriving DecidableEq

/-- Constraints as written (`Asn1Constraint`, ParameterizedAsn1Ast.fs:204-220). Included types are
left out. -/
inductive PCon where
  | val (v : PVal)
  | range (a b : PVal) (incA incB : Bool)
  | ge (a : PVal) (inc : Bool)
  | le (b : PVal) (inc : Bool)
  | size (c : PCon)
  | alpha (c : PCon)
  | union (c d : PCon)
  | inter (c d : PCon)
  | allExcept (c : PCon)
  | except (c d : PCon)
  | root (c : PCon)
  | root2 (c d : PCon)
  | withComp (c : PCon)
  | withComps (cs : List (String × PMark × Option PCon))

/-- OPTIONAL and DEFAULT of a component (ParameterizedAsn1Ast.fs:171-175). -/
inductive POpt where
  | mandatory
  | optional
  | default (v : PVal)

mutual
/-- A type: its kind and its constraints (ParameterizedAsn1Ast.fs:114-139). -/
inductive PTy where
  | mk (kind : PKind) (cons : List PCon)
/-- The kinds of types. `base` stands for all types without component types. -/
inductive PKind where
  | base (b : Nat)
  | seq (cs : List PChild)
  | choice (cs : List PChild)
  | seqOf (t : PTy)
  | ref (md ts : String) (args : List PArg)
/-- A component of a SEQUENCE or an alternative of a CHOICE. -/
inductive PChild where
  | mk (name : String) (ty : PTy) (opt : POpt)
/-- An actual parameter as written: a type or a value (ParameterizedAsn1Ast.fs:147-150; the third
case there is a type that the parser found to be a dummy reference). -/
inductive PArg where
  | type (t : PTy)
  | val (v : PVal)
end

def PTy.kind : PTy → PKind | .mk k _ => k
def PTy.cons : PTy → List PCon | .mk _ c => c
def PChild.name : PChild → String | .mk n _ _ => n
def PChild.ty : PChild → PTy | .mk _ t _ => t
def PChild.opt : PChild → POpt | .mk _ _ o => o

/-- A dummy reference: of a type or of a value (ParameterizedAsn1Ast.fs:95-97). -/
inductive PParam where
  | type (n : String)
  | value (n : String)
deriving DecidableEq

def PParam.name : PParam → String | .type n => n | .value n => n

/-- A type assignment, with its parameter list. -/
structure PTas where
  name : String
  params : List PParam
  body : PTy

structure PModule where
  name : String
  types : List PTas

abbrev PProg := List PModule

/-- The type assignment of that name in the module of that name. -/
def PProg.find (r : PProg) (md ts : String) : Option PTas :=
  (List.find? (fun m => m.name == md) r).bind fun m => m.types.find? (fun t => t.name == ts)

/-! ## The meaning -/

/-- What a dummy reference stands for: a type together with the dummy references in force where
the actual parameter was written, or a value. -/
inductive PClo where
  | ty (ρ : List (String × PClo)) (t : PTy)
  | val (o : Option PV)

abbrev PEnv := List (String × PClo)

mutual
/-- The value that a notation denotes. `G` gives the values of the value assignments; a dummy
reference hides them. -/
def PVal.eval (G : String → String → Option PV) (ρ : PEnv) : PVal → Option PV
  | .int i => some (.int i)
  | .str s => some (.str s)
  | .name md n =>
    match ρ.lookup n with
    | some (.val o) => o
    | some (.ty _ _) => none
    | none => G md n
  | .list vs => (PVal.evalList G ρ vs).map .list
  | .record fs => (PVal.evalFields G ρ fs).map .record
  | .alt n v => (PVal.eval G ρ v).map (.alt n)
def PVal.evalList (G : String → String → Option PV) (ρ : PEnv) : List PVal → Option (List PV)
  | [] => some []
  | v :: vs => (PVal.eval G ρ v).bind fun x => (PVal.evalList G ρ vs).map (x :: ·)
def PVal.evalFields (G : String → String → Option PV) (ρ : PEnv) :
    List (String × PVal) → Option (List (String × PField))
  | [] => some []
  | (n, v) :: fs =>
    (PVal.eval G ρ v).bind fun x => (PVal.evalFields G ρ fs).map ((n, .present x) :: ·)
end

/-- The place of a value in a range: numbers, and strings of one character. -/
def PV.ord : PV → Option Int
  | .int i => some i
  | .str [c] => some c
  | _ => none

/-- The size of a value, where it has one. -/
def PV.sz : PV → Option Nat
  | .str s => some s.length
  | .list l => some l.length
  | _ => none

/-- A component against its presence mark. -/
def PMark.Ok : PMark → PField → Prop
  | .none, _ => True
  | .present, f => ∃ v, f = .present v
  | .absent, f => f = .absent

mutual
/-- The value satisfies the constraint, when the values in it denote what `ev` says. -/
def PCon.Sat (ev : PVal → Option PV) : PCon → PV → Prop
  | .val v, x => ev v = some x
  | .range a b ia ib, x => ∃ p q k, (ev a).bind PV.ord = some p ∧ (ev b).bind PV.ord = some q ∧
      x.ord = some k ∧ (if ia then p ≤ k else p < k) ∧ (if ib then k ≤ q else k < q)
  | .ge a i, x => ∃ p k, (ev a).bind PV.ord = some p ∧ x.ord = some k ∧
      (if i then p ≤ k else p < k)
  | .le b i, x => ∃ q k, (ev b).bind PV.ord = some q ∧ x.ord = some k ∧
      (if i then k ≤ q else k < q)
  | .size c, x => ∃ n, x.sz = some n ∧ PCon.Sat ev c (.int n)
  | .alpha c, x => ∃ s, x = .str s ∧ ∀ ch ∈ s, PCon.Sat ev c (.str [ch])
  | .union c d, x => PCon.Sat ev c x ∨ PCon.Sat ev d x
  | .inter c d, x => PCon.Sat ev c x ∧ PCon.Sat ev d x
  | .allExcept c, x => ¬ PCon.Sat ev c x
  | .except c d, x => PCon.Sat ev c x ∧ ¬ PCon.Sat ev d x
  | .root c, x => PCon.Sat ev c x
  | .root2 c d, x => PCon.Sat ev c x ∨ PCon.Sat ev d x
  | .withComp c, x => ∃ l, x = .list l ∧ ∀ y ∈ l, PCon.Sat ev c y
  | .withComps cs, x => ∃ fs, x = .record fs ∧ PCon.SatAll ev cs fs
def PCon.SatAll (ev : PVal → Option PV) :
    List (String × PMark × Option PCon) → List (String × PField) → Prop
  | [], _ => True
  | (n, m, o) :: cs, fs =>
    (∀ f, fs.lookup n = some f → m.Ok f ∧ ∀ x, f = .present x → PCon.SatOpt ev o x) ∧
      PCon.SatAll ev cs fs
def PCon.SatOpt (ev : PVal → Option PV) : Option PCon → PV → Prop
  | none, _ => True
  | some c, x => PCon.Sat ev c x
end

/-- The actual parameters, each with the dummy references in force where it is written. -/
def PArg.close (G : String → String → Option PV) (ρ : PEnv) : PArg → PClo
  | .type t => .ty ρ t
  | .val v => .val (v.eval G ρ)

/-- Each dummy reference gets its actual parameter; types go to types and values to values. -/
def PParam.Fits : PParam → PArg → Prop
  | .type _, .type _ => True
  | .value _, .val _ => True
  | _, _ => False

/-- **The values of a type.** `r` are the type assignments, `G` the value assignments, `B` the
values of the types without components, `ρ` what the dummy references in force stand for. A name
without actual parameters that is a dummy reference stands for its actual parameter. Any other
reference stands for the type assigned to it, its dummy references standing for the actual
parameters. -/
inductive PTy.Has (r : PProg) (G : String → String → Option PV) (B : Nat → PV → Prop) :
    PEnv → PTy → PV → Prop
  | base {ρ b cs v} (hb : B b v) (hc : ∀ c ∈ cs, PCon.Sat (PVal.eval G ρ) c v) :
      Has r G B ρ (.mk (.base b) cs) v
  | seq {ρ ch cs} {fs : List (String × PField)}
      (hn : fs.map (·.1) = ch.map PChild.name)
      (hp : ∀ (i : Nat) c n x, ch[i]? = some c → fs[i]? = some (n, .present x) →
        Has r G B ρ c.ty x)
      (ha : ∀ (i : Nat) c n, ch[i]? = some c → fs[i]? = some (n, .absent) → c.opt = .optional)
      (hd : ∀ (i : Nat) c n d, ch[i]? = some c → fs[i]? = some (n, .defaulted d) →
        ∃ w, c.opt = .default w ∧ w.eval G ρ = some d)
      (hc : ∀ c ∈ cs, PCon.Sat (PVal.eval G ρ) c (.record fs)) :
      Has r G B ρ (.mk (.seq ch) cs) (.record fs)
  | choice {ρ ch cs c x} (hm : c ∈ ch) (hx : Has r G B ρ c.ty x)
      (hc : ∀ k ∈ cs, PCon.Sat (PVal.eval G ρ) k (.alt c.name x)) :
      Has r G B ρ (.mk (.choice ch) cs) (.alt c.name x)
  | seqOf {ρ t cs l} (hl : ∀ x ∈ l, Has r G B ρ t x)
      (hc : ∀ c ∈ cs, PCon.Sat (PVal.eval G ρ) c (.list l)) :
      Has r G B ρ (.mk (.seqOf t) cs) (.list l)
  | param {ρ md ts cs ρ' t v} (hr : ρ.lookup ts = some (.ty ρ' t)) (ht : Has r G B ρ' t v)
      (hc : ∀ c ∈ cs, PCon.Sat (PVal.eval G ρ) c v) :
      Has r G B ρ (.mk (.ref md ts []) cs) v
  | ref {ρ md ts args cs tas v} (h0 : args = [] → ρ.lookup ts = none)
      (hf : r.find md ts = some tas) (hl : tas.params.length = args.length)
      (hk : ∀ (i : Nat) p a, tas.params[i]? = some p → args[i]? = some a → PParam.Fits p a)
      (ht : Has r G B ((tas.params.map PParam.name).zip (args.map (PArg.close G ρ))) tas.body v)
      (hc : ∀ c ∈ cs, PCon.Sat (PVal.eval G ρ) c v) :
      Has r G B ρ (.mk (.ref md ts args) cs) v

/-- The values of the type assigned to a name. -/
def PProg.Has (r : PProg) (G : String → String → Option PV) (B : Nat → PV → Prop)
    (md ts : String) (v : PV) : Prop :=
  PTy.Has r G B [] (.mk (.ref md ts []) []) v

/-! ## Conditions on a specification -/

mutual
/-- All names that the value notation mentions satisfy `q`. -/
def PVal.allNames (q : String → Bool) : PVal → Bool
  | .int _ => true
  | .str _ => true
  | .name _ n => q n
  | .list vs => PVal.allNamesList q vs
  | .record fs => PVal.allNamesFields q fs
  | .alt _ v => PVal.allNames q v
def PVal.allNamesList (q : String → Bool) : List PVal → Bool
  | [] => true
  | v :: vs => PVal.allNames q v && PVal.allNamesList q vs
def PVal.allNamesFields (q : String → Bool) : List (String × PVal) → Bool
  | [] => true
  | (_, v) :: fs => PVal.allNames q v && PVal.allNamesFields q fs
end

mutual
/-- All value names in the constraint satisfy `q`. -/
def PCon.allNames (q : String → Bool) : PCon → Bool
  | .val v => v.allNames q
  | .range a b _ _ => a.allNames q && b.allNames q
  | .ge a _ => a.allNames q
  | .le b _ => b.allNames q
  | .size c => PCon.allNames q c
  | .alpha c => PCon.allNames q c
  | .union c d => PCon.allNames q c && PCon.allNames q d
  | .inter c d => PCon.allNames q c && PCon.allNames q d
  | .allExcept c => PCon.allNames q c
  | .except c d => PCon.allNames q c && PCon.allNames q d
  | .root c => PCon.allNames q c
  | .root2 c d => PCon.allNames q c && PCon.allNames q d
  | .withComp c => PCon.allNames q c
  | .withComps cs => PCon.allNamesAll q cs
def PCon.allNamesAll (q : String → Bool) : List (String × PMark × Option PCon) → Bool
  | [] => true
  | (_, _, o) :: cs => PCon.allNamesOpt q o && PCon.allNamesAll q cs
def PCon.allNamesOpt (q : String → Bool) : Option PCon → Bool
  | none => true
  | some c => PCon.allNames q c
end

def POpt.allNames (q : String → Bool) : POpt → Bool
  | .default v => v.allNames q
  | _ => true

mutual
/-- All value names and all type names in the type satisfy `q`. -/
def PTy.allNames (q : String → Bool) : PTy → Bool
  | .mk k cs => PKind.allNames q k && cs.all (PCon.allNames q)
def PKind.allNames (q : String → Bool) : PKind → Bool
  | .base _ => true
  | .seq cs => PChild.allNamesAll q cs
  | .choice cs => PChild.allNamesAll q cs
  | .seqOf t => PTy.allNames q t
  | .ref _ ts [] => q ts
  | .ref _ ts (a :: as) => q ts && PArg.allNames q a && PArg.allNamesAll q as
def PChild.allNamesAll (q : String → Bool) : List PChild → Bool
  | [] => true
  | .mk _ t o :: cs => PTy.allNames q t && o.allNames q && PChild.allNamesAll q cs
def PArg.allNames (q : String → Bool) : PArg → Bool
  | .type t => PTy.allNames q t
  | .val v => v.allNames q
def PArg.allNamesAll (q : String → Bool) : List PArg → Bool
  | [] => true
  | a :: as => PArg.allNames q a && PArg.allNamesAll q as
end

mutual
/-- No reference in the type has actual parameters. -/
def PTy.argFree : PTy → Bool
  | .mk k _ => PKind.argFree k
def PKind.argFree : PKind → Bool
  | .base _ => true
  | .seq cs => PChild.argFreeAll cs
  | .choice cs => PChild.argFreeAll cs
  | .seqOf t => PTy.argFree t
  | .ref _ _ [] => true
  | .ref _ _ (_ :: _) => false
def PChild.argFreeAll : List PChild → Bool
  | [] => true
  | .mk _ t _ :: cs => PTy.argFree t && PChild.argFreeAll cs
end

mutual
/-- An actual parameter written without dummy references: a value, a type without actual
parameters in it, or an instance whose actual parameters are of this form. -/
def PArg.simple : PArg → Bool
  | .val _ => true
  | .type (.mk (.ref _ _ (a :: as)) _) => PArg.simple a && PArg.simpleAll as
  | .type t => t.argFree
def PArg.simpleAll : List PArg → Bool
  | [] => true
  | a :: as => PArg.simple a && PArg.simpleAll as
end

/-- An actual parameter inside the assignment with the dummy references `ps`, when `P` are the
names of the dummy references of all assignments: a dummy reference of a type, without
constraints, or a simple one whose names are no dummy references at all. -/
def PArg.tidy (P : List String) (ps : List PParam) : PArg → Bool
  | .type (.mk (.ref _ p []) []) =>
    (ps.contains (.type p) && !ps.contains (.value p)) || !P.contains p
  | a => a.simple && a.allNames (fun n => !P.contains n)

mutual
/-- The body of an assignment with the dummy references `ps`: the names in it are its own dummy
references or no dummy references of any assignment, and its actual parameters are tidy. -/
def PTy.tidy (P : List String) (ps : List PParam) : PTy → Bool
  | .mk k cs => PKind.tidy P ps k &&
      cs.all (PCon.allNames fun n => (ps.map PParam.name).contains n || !P.contains n)
def PKind.tidy (P : List String) (ps : List PParam) : PKind → Bool
  | .base _ => true
  | .seq cs => PChild.tidyAll P ps cs
  | .choice cs => PChild.tidyAll P ps cs
  | .seqOf t => PTy.tidy P ps t
  | .ref _ ts [] => (ps.map PParam.name).contains ts || !P.contains ts
  | .ref _ _ (a :: as) => (a :: as).all (PArg.tidy P ps)
def PChild.tidyAll (P : List String) (ps : List PParam) : List PChild → Bool
  | [] => true
  | .mk _ t o :: cs => PTy.tidy P ps t &&
      o.allNames (fun n => (ps.map PParam.name).contains n || !P.contains n) && PChild.tidyAll P ps cs
end

/-- All dummy references of the specification. -/
def PProg.dummies (r : PProg) : List String :=
  r.flatMap fun m => m.types.flatMap fun t => t.params.map PParam.name

/-- The specifications that the theorem is about: the type names of a module are distinct and
every body is tidy. -/
def PProg.Tidy (r : PProg) : Prop :=
  ∀ m ∈ r, (m.types.map PTas.name).Nodup ∧
    ∀ t ∈ m.types, t.body.tidy r.dummies t.params = true

instance (r : PProg) : Decidable r.Tidy := by unfold PProg.Tidy; infer_instance

end Asn1
