/-!
# COMPONENTS OF and the shorthands of value notation

What X.680 says of COMPONENTS OF, of values of BIT STRING types given by named bits, of character strings
given by a list of parts, and of names of values. Nothing here mentions what the compiler does with them.
-/
namespace Asn1

/-- A value as it is written. `lit`: a literal of which nothing but its identity matters here (a number, a
BOOLEAN, NULL, …). `ref md nm`: a name, `md` is the module in which a value assignment of that name is found.
`list`: `{ a, b }`. `empty`: `{ }`. `named`: `{ x a, y b }`. `chosen`: `x : a`. -/
inductive GVal where
  | lit (a : Nat)
  | bits (b : List Bool)
  | str (s : List Nat)
  | ref (md nm : String)
  | list (vs : List GVal)
  | named (fs : List (String × GVal))
  | chosen (nm : String) (v : GVal)
  | empty

mutual
/-- A type as it is written. `other`: a type of which nothing but its identity matters here (INTEGER, REAL, …).
`bits`: with the named bits and, if the type has a size constraint, the bounds of the size. `str`: a character
string type, IA5String or another one. -/
inductive GTy where
  | other (k : Nat)
  | bits (names : List (String × Nat)) (size : Option (Nat × Nat))
  | str (ia5 : Bool)
  | enum (items : List String)
  | seq (cs : List GChild)
  | seqOf (t : GTy)
  | choice (alts : List (String × GTy))
  | ref (md nm : String)
/-- What is between the braces of a SEQUENCE: a component, or COMPONENTS OF a type. -/
inductive GChild where
  | comp (nm : String) (t : GTy)
  | compsOf (md nm : String)
end

/-- The assignments of all modules. -/
structure GEnv where
  types : List ((String × String) × GTy)
  values : List ((String × String) × (GTy × GVal))

def GEnv.type (P : GEnv) (md nm : String) : Option GTy := P.types.lookup (md, nm)
def GEnv.value (P : GEnv) (md nm : String) : Option (GTy × GVal) := P.values.lookup (md, nm)

def GTy.IsRef : GTy → Prop
  | .ref _ _ => True
  | _ => False

/-- Behind its names the type is `k`. `from`: the module of the last name, if there is one. -/
inductive GEnv.Is (P : GEnv) : GTy → Option String → GTy → Option String → Prop
  | this {t : GTy} {src : Option String} : ¬ t.IsRef → Is P t src t src
  | name {md nm : String} {t k : GTy} {src last : Option String} :
      P.type md nm = some t → Is P t (some md) k last → Is P (.ref md nm) src k last

/-- The type is `k` behind its names. -/
def GEnv.IsKind (P : GEnv) (t k : GTy) : Prop := ∃ last, P.Is t none k last

/-- The components of a SEQUENCE. X.680 25.5: COMPONENTS OF stands for the components of the SEQUENCE type that is
named, in their order; what they consist of may be written with COMPONENTS OF again. -/
inductive GEnv.Components (P : GEnv) : List GChild → List (String × GTy) → Prop
  | nil : Components P [] []
  | comp {nm : String} {t : GTy} {cs : List GChild} {l : List (String × GTy)} :
      Components P cs l → Components P (.comp nm t :: cs) ((nm, t) :: l)
  | compsOf {md nm : String} {inner cs : List GChild} {a l : List (String × GTy)} :
      P.IsKind (.ref md nm) (.seq inner) → Components P inner a → Components P cs l →
      Components P (.compsOf md nm :: cs) (a ++ l)

/-- Every COMPONENTS OF, also in what it stands for, names a type that is written as a SEQUENCE, not as another name. -/
inductive GEnv.Direct (P : GEnv) : List GChild → Prop
  | nil : Direct P []
  | comp {nm : String} {t : GTy} {cs : List GChild} : Direct P cs → Direct P (.comp nm t :: cs)
  | compsOf {md nm : String} {inner cs : List GChild} :
      P.type md nm = some (.seq inner) → Direct P inner → Direct P cs → Direct P (.compsOf md nm :: cs)

/-- No named bit lies beyond the largest size of its type. -/
inductive GTy.Fits : GTy → Prop
  | other {k : Nat} : Fits (.other k)
  | bits {names : List (String × Nat)} : Fits (.bits names none)
  | sized {names : List (String × Nat)} {a b : Nat} :
      b < 2 ^ 32 → (∀ p ∈ names, p.2 < b) → Fits (.bits names (some (a, b)))
  | str {ia5 : Bool} : Fits (.str ia5)
  | enum {items : List String} : Fits (.enum items)
  | seq {cs : List GChild} : (∀ nm t, GChild.comp nm t ∈ cs → Fits t) → Fits (.seq cs)
  | seqOf {t : GTy} : Fits t → Fits (.seqOf t)
  | choice {alts : List (String × GTy)} : (∀ nm t, (nm, t) ∈ alts → Fits t) → Fits (.choice alts)
  | ref {md nm : String} : Fits (.ref md nm)

/-- No named bit of any assignment lies beyond the largest size of its type. -/
def GEnv.Fits (P : GEnv) : Prop := (∀ p ∈ P.types, p.2.Fits) ∧ ∀ p ∈ P.values, p.2.1.Fits

/-- The values of ENUMERATED types that have a name are assigned in the module in which the type is written. -/
def GEnv.EnumsLocal (P : GEnv) : Prop := ∀ md nm t v items last,
  P.value md nm = some (t, v) → P.Is t none (.enum items) (some last) → last = md

/-- An abstract value. `bits f none`: of a type with named bits, where zeros at the end do not count (X.680 22.7),
`f i` is bit `i`. `bits f (some n)`: a string of `n` bits. `item`: an item of an ENUMERATED type. -/
inductive GMean where
  | lit (a : Nat)
  | bits (f : Nat → Bool) (len : Option Nat)
  | str (s : List Nat)
  | item (nm : String)
  | seqOf (xs : List GMean)
  | seq (fs : List (String × GMean))
  | choice (nm : String) (x : GMean)

/-- The string of bits as a value of a type with these named bits. -/
def bitsMean (names : List (String × Nat)) (b : List Bool) : GMean :=
  .bits (fun i => b.getD i false) (if names = [] then some b.length else none)

/-- The characters with a name of their own in the ASN.1 character module that the compiler knows. -/
def specialChar (nm : String) : Option Nat :=
  if nm = "nul" then some 0 else if nm = "ht" then some 9 else if nm = "lf" then some 10
  else if nm = "cr" then some 13 else none

/-- No value assignment has the name of such a character. -/
def GEnv.SpecialFree (P : GEnv) : Prop := ∀ md nm, specialChar nm ≠ none → P.value md nm = none

/-- What a written value means where a value of the type is expected. -/
inductive GEnv.Means (P : GEnv) : GTy → GVal → GMean → Prop
  | lit {t : GTy} {k a : Nat} : P.IsKind t (.other k) → Means P t (.lit a) (.lit a)
  | bits {t : GTy} {names : List (String × Nat)} {size : Option (Nat × Nat)} {b : List Bool} :
      P.IsKind t (.bits names size) → Means P t (.bits b) (bitsMean names b)
  /-- X.680 22.9: the bits that are named are one, all others zero. -/
  | flags {t : GTy} {names : List (String × Nat)} {size : Option (Nat × Nat)} {rs : List (String × String)}
      {f : Nat → Bool} :
      P.IsKind t (.bits names size) → rs ≠ [] → (names.map (·.1)).Nodup →
      (∀ r ∈ rs, r.2 ∈ names.map (·.1)) →
      (∀ i, f i = true ↔ ∃ r ∈ rs, (r.2, i) ∈ names) →
      Means P t (.list (rs.map fun r => .ref r.1 r.2)) (.bits f none)
  | noFlags {t : GTy} {names : List (String × Nat)} {size : Option (Nat × Nat)} :
      P.IsKind t (.bits names size) → Means P t .empty (bitsMean names [])
  | str {t : GTy} {ia5 : Bool} {s : List Nat} : P.IsKind t (.str ia5) → Means P t (.str s) (.str s)
  /-- X.680 41.8: a list of strings and of names of strings. `isChar` are the places of the characters of the ASN.1
  character module: names without a value assignment. -/
  | parts {t : GTy} {ia5 : Bool} {vs : List GVal} {ss : List (List Nat)} {isChar : Nat → Prop} :
      P.IsKind t (.str ia5) → vs ≠ [] → vs.length = ss.length →
      (∀ (i : Nat) v s, isChar i → vs[i]? = some v → ss[i]? = some s →
        ∃ md nm c, v = .ref md nm ∧ P.value md nm = none ∧ specialChar nm = some c ∧ s = [c]) →
      (∀ (i : Nat) v s, ¬ isChar i → vs[i]? = some v → ss[i]? = some s → Means P t v (.str s)) →
      Means P t (.list vs) (.str ss.flatten)
  | item {t : GTy} {items : List String} {md nm : String} :
      P.IsKind t (.enum items) → nm ∈ items → Means P t (.ref md nm) (.item nm)
  /-- A name means the value that is assigned to it. Where an ENUMERATED type is expected the items come first
  (X.680 20.8), and the value must be one of the same ENUMERATED type. -/
  | name {t t' k : GTy} {v : GVal} {x : GMean} {md nm : String} :
      P.IsKind t k → P.value md nm = some (t', v) →
      (∀ items, P.IsKind t (.enum items) → nm ∉ items) →
      (∀ items last, P.Is t none (.enum items) last → P.Is t' none (.enum items) last) →
      Means P t' v x → Means P t (.ref md nm) x
  | seqOf {t c : GTy} {vs : List GVal} {xs : List GMean} :
      P.IsKind t (.seqOf c) → vs ≠ [] → vs.length = xs.length →
      (∀ (i : Nat) v x, vs[i]? = some v → xs[i]? = some x → Means P c v x) →
      Means P t (.list vs) (.seqOf xs)
  | noElements {t c : GTy} : P.IsKind t (.seqOf c) → Means P t .empty (.seqOf [])
  | seq {t : GTy} {cs : List GChild} {l : List (String × GTy)} {fs : List (String × GVal)} {τ : Nat → GTy}
      {xs : List GMean} :
      P.IsKind t (.seq cs) → P.Components cs l → (l.map (·.1)).Nodup → fs ≠ [] → fs.length = xs.length →
      (∀ (i : Nat) p, fs[i]? = some p → (p.1, τ i) ∈ l) →
      (∀ (i : Nat) p x, fs[i]? = some p → xs[i]? = some x → Means P (τ i) p.2 x) →
      Means P t (.named fs) (.seq ((fs.map (·.1)).zip xs))
  | noComponents {t : GTy} {cs : List GChild} : P.IsKind t (.seq cs) → Means P t .empty (.seq [])
  | choice {t a : GTy} {alts : List (String × GTy)} {nm : String} {v : GVal} {x : GMean} :
      P.IsKind t (.choice alts) → (alts.map (·.1)).Nodup → (nm, a) ∈ alts → Means P a v x →
      Means P t (.chosen nm v) (.choice nm x)

/-! ## What the compiler does not know of -/

/-- Every COMPONENTS OF in the type names a type that is written as a SEQUENCE. -/
inductive GEnv.Expandable (P : GEnv) : GTy → Prop
  | other {k : Nat} : Expandable P (.other k)
  | bits {names : List (String × Nat)} {size : Option (Nat × Nat)} : Expandable P (.bits names size)
  | str {ia5 : Bool} : Expandable P (.str ia5)
  | enum {items : List String} : Expandable P (.enum items)
  | seq {cs : List GChild} {l : List (String × GTy)} :
      P.Direct cs → P.Components cs l → (∀ p, p ∈ l → Expandable P p.2) → Expandable P (.seq cs)
  | seqOf {t : GTy} : Expandable P t → Expandable P (.seqOf t)
  | choice {alts : List (String × GTy)} : (∀ p, p ∈ alts → Expandable P p.2) → Expandable P (.choice alts)
  | ref {md nm : String} : Expandable P (.ref md nm)

/-- The value is a literal or a name. -/
def GVal.Atom : GVal → Prop
  | .lit _ | .bits _ | .str _ | .ref _ _ => True
  | _ => False

/-- The value is written without `{ }` for a BIT STRING, without a list for a character string type other than
IA5String, without a list of strings in which a value assignment is named, and without components of a SEQUENCE type
with COMPONENTS OF a type that is not written as a SEQUENCE. -/
inductive GEnv.Avoids (P : GEnv) : GTy → GVal → Prop
  | atom {t : GTy} {v : GVal} : v.Atom → Avoids P t v
  | flags {t : GTy} {names : List (String × Nat)} {size : Option (Nat × Nat)} {vs : List GVal} :
      P.IsKind t (.bits names size) → Avoids P t (.list vs)
  | parts {t : GTy} {vs : List GVal} :
      P.IsKind t (.str true) →
      (∀ v ∈ vs, (∃ s, v = .str s) ∨ ∃ md nm, v = .ref md nm ∧ specialChar nm ≠ none) → Avoids P t (.list vs)
  | seqOf {t c : GTy} {vs : List GVal} :
      P.IsKind t (.seqOf c) → (∀ v, v ∈ vs → Avoids P c v) → Avoids P t (.list vs)
  | noElements {t c : GTy} : P.IsKind t (.seqOf c) → Avoids P t .empty
  | noComponents {t : GTy} {cs : List GChild} : P.IsKind t (.seq cs) → Avoids P t .empty
  | seq {t : GTy} {cs : List GChild} {l : List (String × GTy)} {fs : List (String × GVal)} :
      P.IsKind t (.seq cs) → P.Direct cs → P.Components cs l →
      (∀ p, p ∈ fs → ∀ tc, (p.1, tc) ∈ l → Avoids P tc p.2) → Avoids P t (.named fs)
  | choice {t : GTy} {alts : List (String × GTy)} {nm : String} {v : GVal} :
      P.IsKind t (.choice alts) → (∀ a, (nm, a) ∈ alts → Avoids P a v) → Avoids P t (.chosen nm v)

/-! ## The tree without shorthands -/

/-- A type of the tree that the compiler goes on with: no COMPONENTS OF. -/
inductive HTy where
  | other (k : Nat)
  | bits (names : List (String × Nat)) (size : Option (Nat × Nat))
  | str (ia5 : Bool)
  | enum (items : List String)
  | seq (cs : List (String × HTy))
  | seqOf (t : HTy)
  | choice (alts : List (String × HTy))
  | ref (md nm : String)

/-- A value of that tree: strings of bits and of characters in full. -/
inductive HVal where
  | lit (a : Nat)
  | bits (b : List Bool)
  | str (s : List Nat)
  | ref (md nm : String)
  | list (vs : List HVal)
  | named (fs : List (String × HVal))
  | chosen (nm : String) (v : HVal)

structure HEnv where
  types : List ((String × String) × HTy)
  values : List ((String × String) × (HTy × HVal))

def HEnv.type (P : HEnv) (md nm : String) : Option HTy := P.types.lookup (md, nm)
def HEnv.value (P : HEnv) (md nm : String) : Option (HTy × HVal) := P.values.lookup (md, nm)

def HTy.IsRef : HTy → Prop
  | .ref _ _ => True
  | _ => False

/-- Behind its names the type is `k`. -/
inductive HEnv.IsKind (P : HEnv) : HTy → HTy → Prop
  | this {t : HTy} : ¬ t.IsRef → IsKind P t t
  | name {md nm : String} {t k : HTy} : P.type md nm = some t → IsKind P t k → IsKind P (.ref md nm) k

/-- What a value of the tree means where a value of the type is expected. -/
inductive HEnv.Means (P : HEnv) : HTy → HVal → GMean → Prop
  | lit {t : HTy} {k a : Nat} : P.IsKind t (.other k) → Means P t (.lit a) (.lit a)
  | bits {t : HTy} {names : List (String × Nat)} {size : Option (Nat × Nat)} {b : List Bool} :
      P.IsKind t (.bits names size) → Means P t (.bits b) (bitsMean names b)
  | str {t : HTy} {ia5 : Bool} {s : List Nat} : P.IsKind t (.str ia5) → Means P t (.str s) (.str s)
  | item {t : HTy} {items : List String} {md nm : String} :
      P.IsKind t (.enum items) → nm ∈ items → Means P t (.ref md nm) (.item nm)
  | name {t t' : HTy} {v : HVal} {x : GMean} {md nm : String} :
      P.value md nm = some (t', v) →
      (∀ items, P.IsKind t (.enum items) → nm ∉ items) →
      Means P t' v x → Means P t (.ref md nm) x
  | seqOf {t c : HTy} {vs : List HVal} {xs : List GMean} :
      P.IsKind t (.seqOf c) → vs.length = xs.length →
      (∀ (i : Nat) v x, vs[i]? = some v → xs[i]? = some x → Means P c v x) →
      Means P t (.list vs) (.seqOf xs)
  | seq {t : HTy} {cs : List (String × HTy)} {fs : List (String × HVal)} {τ : Nat → HTy} {xs : List GMean} :
      P.IsKind t (.seq cs) → (fs ≠ [] → (cs.map (·.1)).Nodup) → fs.length = xs.length →
      (∀ (i : Nat) p, fs[i]? = some p → (p.1, τ i) ∈ cs) →
      (∀ (i : Nat) p x, fs[i]? = some p → xs[i]? = some x → Means P (τ i) p.2 x) →
      Means P t (.named fs) (.seq ((fs.map (·.1)).zip xs))
  | choice {t a : HTy} {alts : List (String × HTy)} {nm : String} {v : HVal} {x : GMean} :
      P.IsKind t (.choice alts) → (alts.map (·.1)).Nodup → (nm, a) ∈ alts → Means P a v x →
      Means P t (.chosen nm v) (.choice nm x)

end Asn1
