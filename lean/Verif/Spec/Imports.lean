import Verif.Spec.Topo
/-! # Which assignment a name means (for C104)

Modules as they are written: imports, exports, type assignments, value assignments, and what X.680
(clauses 13 and 14) says a reference in them means. -/
namespace Asn1

/-- A reference as it is written: `T`, or `M.T` with the name of a module. -/
structure IRef where
  qual : Option String
  name : String
deriving DecidableEq, Repr

/-- A type as it is written, as far as references matter: a reference, or any other type with the
types in it (none for INTEGER, one for SEQUENCE OF, the components of a SEQUENCE or CHOICE). -/
inductive ITy where
  | ref (r : IRef)
  | node (kids : List ITy)

/-- `A, B, c FROM M`. -/
structure IImport where
  frm : String
  types : List String
  values : List String
deriving DecidableEq, Repr

/-- A module. `exports` is `none` for EXPORTS ALL and for no EXPORTS, otherwise the types and the
values listed. A value assignment has its type and not its value here. -/
structure IModule where
  name : String
  imports : List IImport
  exports : Option (List String × List String)
  types : List (String × ITy)
  values : List (String × ITy)

mutual
/-- The reference `r` is written in the type, at any depth. -/
inductive ITy.Has : ITy → IRef → Prop where
  | ref {r} : ITy.Has (.ref r) r
  | node {kids r} : ITy.HasL kids r → ITy.Has (.node kids) r
inductive ITy.HasL : List ITy → IRef → Prop where
  | here {t ts r} : ITy.Has t r → ITy.HasL (t :: ts) r
  | there {t ts r} : ITy.HasL ts r → ITy.HasL (t :: ts) r
end

/-- The reference is written in a type assignment of the module. -/
def IModule.UsesInType (m : IModule) (r : IRef) : Prop := ∃ n t, (n, t) ∈ m.types ∧ t.Has r

/-- The reference is written in the type of a value assignment of the module. -/
def IModule.UsesInValue (m : IModule) (r : IRef) : Prop := ∃ n t, (n, t) ∈ m.values ∧ t.Has r

/-- Module `M` has the type assignment `n ::= t`. -/
def DefinesType (P : List IModule) (M n : String) (t : ITy) : Prop :=
  ∃ m ∈ P, m.name = M ∧ (n, t) ∈ m.types

/-- Module `M` has a value assignment `v`. -/
def DefinesValue (P : List IModule) (M v : String) : Prop :=
  ∃ m ∈ P, m.name = M ∧ ∃ t, (v, t) ∈ m.values

/-- In module `M` the type name `n` stands for the assignment `n` of module `D`: its own one, or one
that it imports (X.680 13.12-13.17), be it from a module that has imported it in turn. -/
inductive TypeDenotes (P : List IModule) : String → String → String → Prop where
  | own {M n t} : DefinesType P M n t → TypeDenotes P M n M
  | imported {m i n D} : m ∈ P → i ∈ m.imports → n ∈ i.types → TypeDenotes P i.frm n D →
      TypeDenotes P m.name n D

/-- The same for the name of a value. -/
inductive ValueDenotes (P : List IModule) : String → String → String → Prop where
  | own {M n} : DefinesValue P M n → ValueDenotes P M n M
  | imported {m i n D} : m ∈ P → i ∈ m.imports → n ∈ i.values → ValueDenotes P i.frm n D →
      ValueDenotes P m.name n D

/-- The module in which the name of a reference has to be looked up (X.680 14.1): the one that is
written, or the one in which the reference is. -/
def IRef.scope (m : IModule) (r : IRef) : String := r.qual.getD m.name

/-- Module `M` lets other modules use its type name `n`. -/
def ExportsType (P : List IModule) (M n : String) : Prop :=
  ∃ m ∈ P, m.name = M ∧ ∀ e, m.exports = some e → n ∈ e.1

/-- A type without references. -/
inductive FTy where
  | node (kids : List FTy)

mutual
/-- `Unfolds P m t u`: the type `t`, written in module `m`, is `u` when every reference is replaced
by the type that it means. -/
inductive Unfolds (P : List IModule) : IModule → ITy → FTy → Prop where
  | ref {m r m' t u} : TypeDenotes P (r.scope m) r.name m'.name → m' ∈ P → (r.name, t) ∈ m'.types →
      Unfolds P m' t u → Unfolds P m (.ref r) u
  | node {m kids us} : UnfoldsL P m kids us → Unfolds P m (.node kids) (.node us)
inductive UnfoldsL (P : List IModule) : IModule → List ITy → List FTy → Prop where
  | nil {m} : UnfoldsL P m [] []
  | cons {m t ts u us} : Unfolds P m t u → UnfoldsL P m ts us → UnfoldsL P m (t :: ts) (u :: us)
end

/-- No two IMPORTS clauses of a module name the same module (X.680 13.14). -/
def DistinctClauses (P : List IModule) : Prop := ∀ m ∈ P, (m.imports.map IImport.frm).Nodup

/-- The reference is a mere name that is also the name of a module from which `m` imports. -/
def IRef.Ambiguous (m : IModule) (r : IRef) : Prop := r.qual = none ∧ ∃ i ∈ m.imports, i.frm = r.name

/-- Module `M` lets other modules use its value `v`. -/
def ExportsValue (P : List IModule) (M v : String) : Prop :=
  ∃ m ∈ P, m.name = M ∧ ∀ e, m.exports = some e → v ∈ e.2

/-- What X.680 (clauses 13 and 14) demands of the names in modules. -/
structure LegalNames (P : List IModule) : Prop where
  modules : (P.map IModule.name).Nodup
  clauses : DistinctClauses P
  types : ∀ m ∈ P, (m.types.map Prod.fst ++ m.imports.flatMap IImport.types).Nodup
  values : ∀ m ∈ P, (m.values.map Prod.fst ++ m.imports.flatMap IImport.values).Nodup
  imports : ∀ m ∈ P, ∀ i ∈ m.imports, (∃ m' ∈ P, m'.name = i.frm) ∧
    (∀ n ∈ i.types, (∃ D, TypeDenotes P i.frm n D) ∧ ExportsType P i.frm n) ∧
    ∀ v ∈ i.values, (∃ D, ValueDenotes P i.frm v D) ∧ ExportsValue P i.frm v
  refs : ∀ m ∈ P, ∀ r, m.UsesInType r ∨ m.UsesInValue r → (∃ D, TypeDenotes P (r.scope m) r.name D) ∧
    (r.scope m ≠ m.name → ExportsType P (r.scope m) r.name)

/-- The type assignment `a`, module and name, has a reference to the type assignment `b` in it. -/
def TypeUses (P : List IModule) (a b : String × String) : Prop :=
  ∃ m ∈ P, m.name = a.1 ∧ ∃ t r, (a.2, t) ∈ m.types ∧ t.Has r ∧ r.name = b.2 ∧ TypeDenotes P (r.scope m) r.name b.1

/-- Module `A` imports from module `B`, or a type assignment of it names a type of `B`. -/
def ModuleNeeds (P : List IModule) (A B : String) : Prop :=
  ∃ m ∈ P, m.name = A ∧ ((∃ i ∈ m.imports, i.frm = B) ∨ (B ≠ A ∧ ∃ r, m.UsesInType r ∧ r.qual = some B))

/-- No IMPORTS clause lists a name twice. -/
def ListsOnce (P : List IModule) : Prop := ∀ m ∈ P, ∀ i ∈ m.imports, i.types.Nodup ∧ i.values.Nodup

/-- What the compiler demands in addition. -/
structure SupportedNames (P : List IModule) : Prop where
  /-- what is imported from a module, or named with it, has its assignment there and is not imported in turn -/
  direct : ∀ m ∈ P, (∀ i ∈ m.imports, (∀ n ∈ i.types, ∃ t, DefinesType P i.frm n t) ∧ ∀ v ∈ i.values, DefinesValue P i.frm v) ∧
    ∀ r, m.UsesInType r ∨ m.UsesInValue r → r.qual ≠ none → ∃ t, DefinesType P (r.scope m) r.name t
  /-- a module with a list of exports has the types in it that it uses itself -/
  listed : ∀ m ∈ P, ∀ r, m.UsesInType r ∨ m.UsesInValue r → r.scope m = m.name → ∀ t, (r.name, t) ∈ m.types →
    ∀ e, m.exports = some e → r.name ∈ e.1
  /-- no type has the name of a module from which there are imports -/
  notModule : ∀ m ∈ P, ∀ r, m.UsesInType r ∨ m.UsesInValue r → ¬ r.Ambiguous m
  /-- a type that is named with its module has a name that means nothing else -/
  noClash : ∀ m ∈ P, ∀ r M, m.UsesInType r → r.qual = some M → M ≠ m.name → (∀ t, (r.name, t) ∉ m.types) ∧
    (∀ i ∈ m.imports, r.name ∈ i.types → i.frm = M) ∧
    ∀ r' M', m.UsesInType r' → r'.qual = some M' → M' ≠ m.name → r'.name = r.name → M' = M
  /-- no type contains itself -/
  acyclic : ¬ Cyclic (TypeUses P)
  /-- no module needs itself -/
  modAcyclic : ¬ Cyclic (ModuleNeeds P)

end Asn1
