import Verif.Model.Topo
import Mathlib.Logic.Relation
/-! # What an order of declarations has to satisfy (for C84, C85) -/
namespace Asn1

/-- In this order everything that an entry needs is declared in front of it. -/
def InOrder {α β : Type} (isName : β → α → Prop) (entries : List (α × List β)) : Prop :=
  ∀ before entry after, entries = before ++ entry :: after → ∀ d ∈ entry.2, ∃ b ∈ before, isName d b.1

/-- `a` needs `b`: there is an entry for `a` that lists `b`. -/
def DependsOn {α : Type} (entries : List (α × List α)) (a b : α) : Prop := ∃ l, (a, l) ∈ entries ∧ b ∈ l

/-- There is a cycle: something that needs itself, directly or through others. -/
def Cyclic {α : Type} (needs : α → α → Prop) : Prop := ∃ a, Relation.TransGen needs a a

mutual
/-- The type `t` mentions the type assignment `n` somewhere: by a reference at any depth or as the type of an ACN parameter. -/
inductive Mentions : TShape → TypeName → Prop where
  | leafPrm {prms n} : n ∈ prms → Mentions (.leaf prms) n
  | seqOfPrm {prms t n} : n ∈ prms → Mentions (.seqOf prms t) n
  | seqOf {prms t n} : Mentions t n → Mentions (.seqOf prms t) n
  | sequencePrm {prms ts n} : n ∈ prms → Mentions (.sequence prms ts) n
  | sequence {prms ts n} : MentionsAny ts n → Mentions (.sequence prms ts) n
  | choicePrm {prms ts n} : n ∈ prms → Mentions (.choice prms ts) n
  | choice {prms ts n} : MentionsAny ts n → Mentions (.choice prms ts) n
  | referencePrm {prms m n} : n ∈ prms → Mentions (.reference prms m) n
  | reference {prms n} : Mentions (.reference prms n) n
inductive MentionsAny : TShapes → TypeName → Prop where
  | here {t ts n} : Mentions t n → MentionsAny (.cons t ts) n
  | there {t ts n} : MentionsAny ts n → MentionsAny (.cons t ts) n
end

/-- The file has a type assignment `n` with the type `t`. -/
def AsnFile.Declares (f : AsnFile) (n : TypeName) (t : TShape) : Prop :=
  ∃ m ∈ f.modules, m.name = n.modName ∧ (n.tasName, t) ∈ m.types

/-- The file imports `n` from a module of another file. -/
def AsnFile.Imports (f : AsnFile) (n : TypeName) : Prop :=
  (∃ m ∈ f.modules, ∃ l, (n.modName, l) ∈ m.imports ∧ n.tasName ∈ l) ∧ ∀ m ∈ f.modules, m.name ≠ n.modName

/-- Module `a` imports from module `b`. -/
def ModuleImports (files : List AsnFile) (a b : String) : Prop :=
  ∃ f ∈ files, ∃ m ∈ f.modules, m.name = a ∧ ∃ l, (b, l) ∈ m.imports

/-- The header of file `a` includes the header of file `b`. -/
def HeaderIncludes (files : List AsnFile) (a b : String) : Prop :=
  ∃ f ∈ files, f.name = a ∧ ∃ l, AsnFile.includes files f = some l ∧ b ∈ l

end Asn1
