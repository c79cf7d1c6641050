import Verif.Model.AcnExpr
/-!
# Specification: presence expressions

Of `Verif.Model.AcnExpr` only the syntax (expressions, tokens, components, C types) is used, and the rule of C for the type of an operation
(`commonType`).
-/
namespace Asn1

/-! ### The grammar of C expressions -/

/-- The level of a binary operator in the grammar of C (C11 6.5.5 to 6.5.14). -/
def cLevel : AcnBin → Nat
  | .mul | .div | .mod => 2
  | .add | .sub => 3
  | .le | .lt | .ge | .gt => 4
  | .eq | .ne => 5
  | .and => 6
  | .or => 7

/-- The grammar of C (C11 6.5.1 to 6.5.14), as far as these tokens go. `CParses l ts e`: `ts` is an expression of level `l` with
the syntax tree `e`. Level 0 is primary-expression, 1 unary-expression, 2 multiplicative-expression, … 7 logical-OR-expression.
Binary operators are left associative. -/
inductive CParses : Nat → List CTok → AcnExp → Prop
  | int (v : Nat) : CParses 0 [.int v] (.int v)
  | real (t : String) : CParses 0 [.real t] (.real t)
  | bool (b : Bool) : CParses 0 [.bool b] (.bool b)
  | field (p : List String) : CParses 0 [.path p] (.field p)
  | paren {ts : List CTok} {e : AcnExp} : CParses 7 ts e → CParses 0 (.lparen :: (ts ++ [.rparen])) e
  | up {l : Nat} {ts : List CTok} {e : AcnExp} : CParses l ts e → CParses (l + 1) ts e
  | not {ts : List CTok} {e : AcnExp} : CParses 1 ts e → CParses 1 (.bang :: ts) (.not e)
  | neg {ts : List CTok} {e : AcnExp} : CParses 1 ts e → CParses 1 (.op .sub :: ts) (.neg e)
  | bin (o : AcnBin) {l : Nat} {ts us : List CTok} {a b : AcnExp} : cLevel o = l + 1 → CParses (l + 1) ts a → CParses l us b →
      CParses (l + 1) (ts ++ .op o :: us) (.bin o a b)

/-- The expression with the C paths of its references. -/
def AcnExp.withPaths (acc : List String → List String) : AcnExp → AcnExp
  | .int v => .int v
  | .const n => .const n
  | .real t => .real t
  | .bool b => .bool b
  | .field p => .field (acc p)
  | .not e => .not (e.withPaths acc)
  | .neg e => .neg (e.withPaths acc)
  | .bin o a b => .bin o (a.withPaths acc) (b.withPaths acc)

/-- No ACN constants are used. -/
def AcnExp.NoConst : AcnExp → Prop
  | .const _ => False
  | .not e => e.NoConst
  | .neg e => e.NoConst
  | .bin _ a b => a.NoConst ∧ b.NoConst
  | _ => True

/-! ### References -/

/-- The component that a path leads to: every name but the last is a SEQUENCE. -/
inductive Leads : SFields → List String → FieldTy → Prop
  | here {s : SFields} {x : String} {o : Bool} {t : FieldTy} : s.find x = some (false, o, t) → Leads s [x] t
  | inside {s s' : SFields} {x : String} {o : Bool} {xs : List String} {t : FieldTy} : s.find x = some (false, o, .seq s') →
      Leads s' xs t → Leads s (x :: xs) t

/-- The same, and the component is always there: nothing on the path is OPTIONAL. -/
inductive LeadsAlways : SFields → List String → FieldTy → Prop
  | here {s : SFields} {x : String} {t : FieldTy} : s.find x = some (false, false, t) → LeadsAlways s [x] t
  | inside {s s' : SFields} {x : String} {xs : List String} {t : FieldTy} : s.find x = some (false, false, .seq s') →
      LeadsAlways s' xs t → LeadsAlways s (x :: xs) t

/-! ### The meaning of an expression -/

/-- The value of an expression: numbers are unbounded, division rounds to zero, truth values are 0 and 1; `&&` and `||` evaluate
the second operand only if needed. `none`: division by zero, or no integer expression. -/
def expValue (env : List String → Int) : AcnExp → Option Int
  | .int v => some v
  | .const _ => none
  | .real _ => none
  | .bool b => some (if b then 1 else 0)
  | .field p => some (env p)
  | .not e => (expValue env e).map fun x => if x = 0 then 1 else 0
  | .neg e => (expValue env e).map fun x => -x
  | .bin op a b =>
    match expValue env a with
    | none => none
    | some x =>
      match op with
      | .and => if x = 0 then some 0 else (expValue env b).map fun y => if y = 0 then 0 else 1
      | .or => if x ≠ 0 then some 1 else (expValue env b).map fun y => if y = 0 then 0 else 1
      | _ =>
        match expValue env b with
        | none => none
        | some y =>
          match op with
          | .add => some (x + y)
          | .sub => some (x - y)
          | .mul => some (x * y)
          | .div => if y = 0 then none else some (x.tdiv y)
          | .mod => if y = 0 then none else some (x.tmod y)
          | .le => some (if x ≤ y then 1 else 0)
          | .lt => some (if x < y then 1 else 0)
          | .ge => some (if y ≤ x then 1 else 0)
          | .gt => some (if y < x then 1 else 0)
          | .eq => some (if x = y then 1 else 0)
          | _ => some (if x = y then 0 else 1)

/-- The C type of an expression. -/
def cType (ty : List String → CT) : AcnExp → CT
  | .int v => if v < 2 ^ 31 then .i32 else .i64
  | .field p => ty p
  | .neg e => cType ty e
  | .bin op a b =>
    match op with
    | .add | .sub | .mul | .div | .mod => commonType (cType ty a) (cType ty b)
    | _ => .i32
  | _ => .i32

/-- A number of a C type. -/
def CT.has (t : CT) (x : Int) : Prop := t.lo ≤ x ∧ x ≤ t.hi

/-- The value of `e`, if it has one, is a number of the C type `t`. -/
def HasValue (env : List String → Int) (e : AcnExp) (t : CT) : Prop := ∀ x, expValue env e = some x → t.has x

/-- All numbers that occur fit the C types in which C computes: constants and components, the operands after conversion to a common
type, and the results. -/
def Representable (ty : List String → CT) (env : List String → Int) : AcnExp → Prop
  | .int v => v < 2 ^ 63
  | .field p => (ty p).has (env p)
  | .not e => Representable ty env e
  | .neg e => Representable ty env e ∧ HasValue env (.neg e) (cType ty e)
  | .bin op a b =>
    Representable ty env a ∧
    match op with
    | .and => expValue env a ≠ some 0 → Representable ty env b
    | .or => expValue env a = some 0 → Representable ty env b
    | .mod => Representable ty env b ∧ HasValue env a (commonType (cType ty a) (cType ty b)) ∧
        HasValue env b (commonType (cType ty a) (cType ty b)) ∧ HasValue env (.bin .div a b) (commonType (cType ty a) (cType ty b))
    | .add | .sub | .mul | .div => Representable ty env b ∧ HasValue env a (commonType (cType ty a) (cType ty b)) ∧
        HasValue env b (commonType (cType ty a) (cType ty b)) ∧ HasValue env (.bin op a b) (commonType (cType ty a) (cType ty b))
    | _ => Representable ty env b ∧ HasValue env a (commonType (cType ty a) (cType ty b)) ∧
        HasValue env b (commonType (cType ty a) (cType ty b))
  | _ => True

/-- The expression mentions the component at the path `p`. -/
def AcnExp.MentionsPath : AcnExp → List String → Prop
  | .field q, p => q = p
  | .not e, p => e.MentionsPath p
  | .neg e, p => e.MentionsPath p
  | .bin _ a b, p => a.MentionsPath p ∨ b.MentionsPath p
  | _, _ => False

/-- Every value that occurs in the evaluation is at least `lo` and less than 2^31. -/
def AllSmall (lo : Int) (env : List String → Int) : AcnExp → Prop
  | .int v => (v : Int) < 2 ^ 31
  | .field p => lo ≤ env p ∧ env p < 2 ^ 31
  | .not e => AllSmall lo env e
  | .neg e => AllSmall lo env e ∧ ∀ x, expValue env (.neg e) = some x → lo ≤ x ∧ x < 2 ^ 31
  | .bin op a b => AllSmall lo env a ∧ AllSmall lo env b ∧ (∀ x, expValue env (.bin op a b) = some x → lo ≤ x ∧ x < 2 ^ 31) ∧
      (op = .mod → ∀ x, expValue env (.bin .div a b) = some x → lo ≤ x ∧ x < 2 ^ 31)
  | _ => True

end Asn1
