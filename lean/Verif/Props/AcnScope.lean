import Verif.Proof.AcnScopeMore
/-
C102: references to determinants in an ACN grammar. An accepted reference means one parameter or
one inserted field, of the kind that is needed, and a decoder meets this field before the type
that needs it.
-/
namespace Asn1

/-- **C102, resolved.** If the compiler accepts a type, then every reference to a determinant in it
means something of the needed kind, with the needed values, and the back end is told of it. (For
the conditions of other alternatives than the first one of a CHOICE the values are not checked.) -/
theorem C102_resolved_partial (R : String → String → Option SActual) (root : STy) (deps : List SDep)
    (ha : root.arity = true) (h : checkTas R root = some deps) {first : Bool} {who : SId}
    {scope around : List SPlace} {path : List String} {need : SNeed}
    (hr : Refers root first who scope around path need) :
    ∃ target, PathMeans false scope around path target ∧ SuitsKind R need target ∧
      (first = true → SuitsValue R need target) ∧ ⟨who, target, depKind path need⟩ ∈ deps := by
  obtain ⟨d, hd, tgt, rfl, h1, h2, h3, _⟩ := refers_good (arity_of ha) h hr
  exact ⟨tgt, h1, h2, h3, hd⟩

/-- **C102, nothing else.** The back end is told of nothing but references, with what they mean. -/
theorem C102_only_partial (R : String → String → Option SActual) (root : STy) (deps : List SDep)
    (h : checkTas R root = some deps) (d : SDep) (hd : d ∈ deps) :
    ∃ who scope around path need target, Refers root true who scope around path need ∧
      PathMeans false scope around path target ∧ d = ⟨who, target, depKind path need⟩ := by
  obtain ⟨ds, e, hf⟩ := checkTy_from root .root h
  rw [List.append_nil] at e
  subst e
  obtain ⟨who, scope, around, path, need, hr, tgt, rfl, h1, _⟩ := hf d hd
  exact ⟨who, scope, around, path, need, tgt, hr, h1, rfl⟩

/-- **C102, one meaning.** A reference means one thing only. -/
theorem C102_unique_partial (root : STy) (hd : root.distinct = true) {first : Bool} {who : SId}
    {scope around : List SPlace} {path : List String} {need : SNeed}
    (hr : Refers root first who scope around path need) {a b : Bool} {t1 t2 : STarget}
    (h1 : PathMeans a scope around path t1) (h2 : PathMeans b scope around path t2) : t1 = t2 := by
  obtain ⟨t, ho⟩ := refers_occ hr
  refine pathDenotes_unique (fun q hq => ?_) h1 h2
  obtain ⟨⟨ar, hq'⟩, _⟩ := occ_around ho q hq
  exact occ_distinct hd hq'

/-- **C102, known in time.** If the compiler accepts a type, then in every run of a decoder, whenever
it meets the type at `who`, it has met the determinant before, since the last time it met the
SEQUENCE `s` where the path starts (so in the same element of a SEQUENCE OF). The path must not pass
through an OPTIONAL component. -/
theorem C102_known_partial (R : String → String → Option SActual) (root : STy) (deps : List SDep)
    (hd : root.distinct = true) (ha : root.arity = true) (h : checkTas R root = some deps)
    {first : Bool} {who : SId} {scope around : List SPlace} {path : List String} {need : SNeed}
    (hr : Refers root first who scope around path need) {s : SId} {f : SField}
    (hm : PathMeans true scope around path (.field (s ++ path) f)) (es before after : List SId)
    (hrun : Run [] root es) (hw : es = before ++ who :: after) :
    ∃ u m, before = u ++ s :: m ∧ s ∉ m ∧ s ++ path ∈ m :=
  met_before hd (arity_of ha) h hr hm hrun hw

/-- **C102, exclusive.** Whatever values the determinants have, at most one alternative of an accepted
CHOICE has its conditions satisfied; and if one alternative has conditions then all have. -/
theorem C102_exclusive_partial (R : String → String → Option SActual) (root : STy) (deps : List SDep)
    (ha : root.arity = true) (h : checkTas R root = some deps) {around : List SPlace} {id : SId}
    {ps : List SParam} {d : Option (List String)} {alts : List SAlt}
    (ho : Occ root around id (.mk ps (.choice d alts)))
    (σ : List String → Int) (τ : List String → String) (i j : Nat) (a b : SAlt)
    (hi : alts[i]? = some a) (hj : alts[j]? = some b) :
    (a.conds = [] ↔ b.conds = []) ∧
    (a.conds ≠ [] → (∀ c ∈ a.conds, c.Holds σ τ) → (∀ c ∈ b.conds, c.Holds σ τ) → i = j) := by
  have ham := List.mem_of_getElem? hi
  have hbm := List.mem_of_getElem? hj
  rcases when_facts (arity_of ha) h ho with ⟨p, _, hc⟩ | ⟨hn, hc⟩
  · simp [hc a ham, hc b hbm]
  · have hp := hc a ham b hbm
    have hiff : a.conds = [] ↔ b.conds = [] := by
      constructor
      · intro e; rw [e] at hp; exact condPaths_nil hp.symm
      · intro e; rw [e] at hp; exact condPaths_nil hp
    refine ⟨hiff, fun hne h1 h2 => ?_⟩
    refine nodup_filter_index _ _ hn hi hj ?_ ?_ ?_
    · simpa using hne
    · have : b.conds ≠ [] := fun e => hne (hiff.2 e)
      simpa using this
    · rw [sorted_keys h1, sorted_keys h2, hp]

/-- **C102, the same inside.** If a type is accepted on its own and as part of another one, then the
references in it mean the same fields and parameters there, as long as no type around it has a
parameter with the first name of one of its paths. -/
theorem C102_inside_partial (R : String → String → Option SActual) (root t : STy) (deps part : List SDep)
    (hd : root.distinct = true) (ha : root.arity = true) (h : checkTas R root = some deps)
    {around : List SPlace} {id : SId} (ho : Occ root around id t) (hp : checkTas R t = some part)
    (hcap : ∀ q ∈ around, ∀ first who scope ar path need, Refers t first who scope ar path need →
      ∀ x xs, path = x :: xs → q.2.param x = none) (d : SDep) (hm : d ∈ part) : d.shift id ∈ deps := by
  obtain ⟨who, scope, ar, path, need, tgt, hr, h1, rfl⟩ := C102_only_partial R t part hp d hm
  have hr' := refers_trans ho hr
  obtain ⟨tgt', h2, _, _, h5⟩ := C102_resolved_partial R root deps ha h hr'
  have h1' := denotes_trans (id := id) (ar := around) (fun q hq => hcap q hq _ _ _ _ _ _ hr) h1
  have := C102_unique_partial root hd hr' h2 h1'
  subst this
  exact h5

/-! ## A grammar with determinants -/

/-- Types by name: `Kind ::= ENUMERATED {a, b}`. -/
def exNames : String → String → Option SActual := fun _ ts => if ts = "Kind" then some (.enum ["a", "b"]) else none

/--
```
Body<Kind:sel> [determinant sel] ::= CHOICE { a, b }
Msg ::= SEQUENCE {
   hdr  SEQUENCE { kind Kind [], n INTEGER(0..255) [size 8], flag BOOLEAN [] },
   opt  OCTET STRING (SIZE(0..20)) [size hdr.n, present-when hdr.flag] OPTIONAL,
   list SEQUENCE (SIZE(0..10)) OF [size hdr.n] SEQUENCE {
      k    INTEGER(0..255) [size 8],
      v    OCTET STRING (SIZE(0..100)) [size k],
      body Body<hdr.kind> } }
```
-/
def exBody : STy := .mk [⟨"sel", .ref "M" "Kind"⟩] (.choice (some ["sel"])
  [.mk "a" [] (.mk [] (.leaf none)), .mk "b" [] (.mk [] (.leaf none))])

def exItem : STy := .mk [] (.seq [
  .acn "k" (.int (some 0) (some 255) (some (0, 255))),
  .asn "v" none (.mk [] (.leaf (some ⟨["k"], 0, 100⟩))),
  .asn "body" none (.mk [] (.ref none [["hdr", "kind"]] exBody))])

def exMsg : STy := .mk [] (.seq [
  .asn "hdr" none (.mk [] (.seq [
    .acn "kind" (.enum ["a", "b"]),
    .acn "n" (.int (some 0) (some 255) (some (0, 255))),
    .acn "flag" .bool])),
  .asn "opt" (some (some ["hdr", "flag"])) (.mk [] (.leaf (some ⟨["hdr", "n"], 0, 20⟩))),
  .asn "list" none (.mk [] (.seqOf (some ⟨["hdr", "n"], 0, 10⟩) exItem))])

/-- What the back end is told. -/
def exDeps : List SDep := [
  ⟨["list", "#", "body"], .param ["list", "#", "body"] ⟨"sel", .ref "M" "Kind"⟩, .names⟩,
  ⟨["list", "#", "body"], .field ["hdr", "kind"] (.enum ["a", "b"]), .arg ⟨"sel", .ref "M" "Kind"⟩⟩,
  ⟨["list", "#", "v"], .field ["list", "#", "k"] (.int (some 0) (some 255) (some (0, 255))), .size 0 100⟩,
  ⟨["list"], .field ["hdr", "n"] (.int (some 0) (some 255) (some (0, 255))), .size 0 10⟩,
  ⟨["opt"], .field ["hdr", "n"] (.int (some 0) (some 255) (some (0, 255))), .size 0 20⟩,
  ⟨["opt"], .field ["hdr", "flag"] .bool, .flag⟩]

theorem exMsg_accepted : checkTas exNames exMsg = some exDeps := rfl

theorem exMsg_ok : exMsg.distinct = true ∧ exMsg.arity = true := by decide

/-- The length of `v` in every element: it is met since the element began. -/
example (es before after : List SId) (hrun : Run [] exMsg es)
    (hw : es = before ++ ["list", "#", "v"] :: after) :
    ∃ u m, before = u ++ ["list", "#"] :: m ∧ ["list", "#"] ∉ m ∧ ["list", "#", "k"] ∈ m := by
  have ho : Occ exMsg [(["list", "#"], exItem), (["list"], .mk [] (.seqOf (some ⟨["hdr", "n"], 0, 10⟩) exItem)),
      ([], exMsg)] ["list", "#", "v"] (.mk [] (.leaf (some ⟨["k"], 0, 100⟩))) :=
    .child (id := ["list", "#"]) (o := none)
      (.elem (id := ["list"]) (.child (id := []) (o := none) .root (by simp [exMsg]))) (by simp)
  refine C102_known_partial exNames exMsg exDeps exMsg_ok.1 exMsg_ok.2 exMsg_accepted (.size ho rfl)
    (s := ["list", "#"]) (f := .int (some 0) (some 255) (some (0, 255))) ?_ es before after hrun hw
  exact .field (inner := []) (t := exItem) (by decide) rfl (by simp) (by decide) (.here (by simp))

/-- There is such a run, with two elements. -/
theorem exMsg_run : Run [] exMsg [[], ["hdr"], ["hdr", "kind"], ["hdr", "n"], ["hdr", "flag"], ["opt"], ["list"],
    ["list", "#"], ["list", "#", "k"], ["list", "#", "v"], ["list", "#", "body"], ["list", "#", "body", "a"],
    ["list", "#"], ["list", "#", "k"], ["list", "#", "v"], ["list", "#", "body"], ["list", "#", "body", "b"]] := by
  have ra : Run ["list", "#"] exItem [["list", "#"], ["list", "#", "k"], ["list", "#", "v"],
      ["list", "#", "body"], ["list", "#", "body", "a"]] :=
    .seq (.acn (.asn (es := [_]) .leaf (.asn (es := [_, _]) (.ref (.choice (n := "a") (c := []) (t := .mk [] (.leaf none)) (by simp) .leaf)) .nil)))
  have rb : Run ["list", "#"] exItem [["list", "#"], ["list", "#", "k"], ["list", "#", "v"],
      ["list", "#", "body"], ["list", "#", "body", "b"]] :=
    .seq (.acn (.asn (es := [_]) .leaf (.asn (es := [_, _]) (.ref (.choice (n := "b") (c := []) (t := .mk [] (.leaf none)) (by simp) .leaf)) .nil)))
  exact .seq (.asn (es := [_, _, _, _]) (.seq (.acn (.acn (.acn .nil)))) (.absent
    (.asn (es := [_, _, _, _, _, _, _, _, _, _, _]) (.seqOf (.cons ra (.cons rb .nil))) .nil)))

/-- The alternatives of a CHOICE with conditions. -/
def exAlts : List SAlt := [
  .mk "x" [.int ["n"] 1, .str ["s"] "ab"] (.mk [] (.leaf none)),
  .mk "y" [.str ["s"] "cd", .int ["n"] 1] (.mk [] (.leaf none)),
  .mk "z" [.int ["n"] 2, .str ["s"] "ab"] (.mk [] (.leaf none))]

/-- A SEQUENCE with this CHOICE. -/
def exWhen : STy := .mk [] (.seq [
  .acn "n" (.int (some 0) (some 255) (some (0, 255))),
  .acn "s" (.str 1 4),
  .asn "c" none (.mk [] (.choice none exAlts))])

theorem exWhen_accepted : (checkTas exNames exWhen).isSome = true := by decide +kernel

example (deps : List SDep) (h : checkTas exNames exWhen = some deps) (σ : List String → Int)
    (τ : List String → String) (i j : Nat) (a b : SAlt)
    (hi : exAlts[i]? = some a) (hj : exAlts[j]? = some b) (hne : a.conds ≠ [])
    (h1 : ∀ c ∈ a.conds, c.Holds σ τ) (h2 : ∀ c ∈ b.conds, c.Holds σ τ) : i = j := by
  have ho : Occ exWhen [([], exWhen)] ["c"] (.mk [] (.choice none exAlts)) :=
    .child (id := []) (o := none) .root (by simp)
  exact (C102_exclusive_partial exNames exWhen deps (by decide) h ho σ τ i j a b hi hj).2 hne h1 h2

/-- An inserted length of one byte. -/
def exLen : SField := .int (some 0) (some 255) (some (0, 255))

/-- `Inner ::= SEQUENCE { len INTEGER(0..255) [], data OCTET STRING (SIZE(0..9)) [size len] }`. -/
def exInner : STy := .mk [] (.seq [.acn "len" exLen, .asn "data" none (.mk [] (.leaf (some ⟨["len"], 0, 9⟩)))])

/-- `Inner` as the element of a SEQUENCE OF: the dependency is the same. -/
example (deps : List SDep) (h : checkTas exNames (.mk [] (.seqOf none exInner)) = some deps) :
    (⟨["#", "data"], .field ["#", "len"] exLen, .size 0 9⟩ : SDep) ∈ deps := by
  refine C102_inside_partial exNames _ exInner deps [⟨["data"], .field ["len"] exLen, .size 0 9⟩]
    (by decide) (by decide) h (id := ["#"]) (.elem (id := []) .root) rfl ?_ _ List.mem_cons_self
  intro q hq
  simp only [List.mem_singleton] at hq
  subst hq
  intros
  rfl

/-! ## What the check does not see -/

/-- **C102, violation.** `Inner ::= SEQUENCE { len INTEGER [], data OCTET STRING [size len] }` means its
own `len` when it stands alone; in a type with a parameter `len` it means the parameter. -/
theorem C102_capture_violation :
    checkTas exNames exInner = some [⟨["data"], .field ["len"] exLen, .size 0 9⟩] ∧
    checkTas exNames (.mk [⟨"len", .int⟩] (.seq [.asn "body" none (.mk [] (.ref none [] exInner))])) =
      some [⟨["body", "data"], .param [] ⟨"len", .int⟩, .size 0 9⟩] := ⟨rfl, rfl⟩

def exOptional : STy := .mk [] (.seq [
  .asn "hdr" (some none) (.mk [] (.seq [.acn "n" exLen])),
  .asn "data" none (.mk [] (.leaf (some ⟨["hdr", "n"], 0, 9⟩)))])

/-- **C102, violation.** A determinant in an OPTIONAL component is accepted, although a decoder meets
the type without having met the determinant. -/
theorem C102_optional_violation : (checkTas exNames exOptional).isSome = true ∧
    Run [] exOptional [[], ["hdr"], ["data"]] ∧ ["hdr", "n"] ∉ [[], ["hdr"], ["data"]] := by
  refine ⟨rfl, .seq (.absent (.asn (es := [_]) .leaf .nil)), by decide⟩

/-- **C102, violation.** The values at the second alternative are not compared with the range of the
determinant: `n INTEGER(0..255)`, `present-when n==300`. -/
theorem C102_value_violation : (checkTas exNames (.mk [] (.seq [.acn "n" exLen,
      .asn "c" none (.mk [] (.choice none [.mk "x" [.int ["n"] 1] (.mk [] (.leaf none)),
        .mk "y" [.int ["n"] 300] (.mk [] (.leaf none))]))]))).isSome = true ∧
    ¬ SuitsValue exNames (.value 300) (.field ["n"] exLen) := by
  refine ⟨by decide +kernel, ?_⟩
  intro h
  exact absurd (h.2 255 rfl) (by decide)

/-- **C102, violation.** An actual parameter for a parameter of a named type is not checked: an INTEGER
field is accepted as the selector of a CHOICE. -/
theorem C102_argument_violation : (checkTas exNames (.mk [] (.seq [.acn "n" exLen,
      .asn "body" none (.mk [] (.ref none [["n"]] exBody))]))).isSome = true ∧
    ¬ SuitsKind exNames (.names ["a", "b"]) (.field ["n"] exLen) := by
  refine ⟨rfl, ?_⟩
  rintro ⟨l, h⟩
  cases h

/-- **C102, violation.** A determinant in uPER with the range (0..3) is accepted for up to 100 elements. -/
theorem C102_uper_violation : (checkTas exNames (.mk [] (.seq [.acn "n" (.int (some 0) (some 3) none),
      .asn "data" none (.mk [] (.leaf (some ⟨["n"], 0, 100⟩)))]))).isSome = true ∧
    ¬ InRange (some 0) (some 3) 100 := by
  refine ⟨rfl, fun h => absurd (h.2 3 rfl) (by decide)⟩

/-- **C102, violation.** Names after that of a parameter are ignored: `len.x.y` means `len`. -/
theorem C102_tail_violation :
    checkTas exNames (.mk [⟨"len", .int⟩] (.leaf (some ⟨["len", "x", "y"], 0, 9⟩))) =
      some [⟨[], .param [] ⟨"len", .int⟩, .size 0 9⟩] := rfl

end Asn1
