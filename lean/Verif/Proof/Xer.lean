import Verif.Spec.Xer
import Verif.Proof.Bits
/-!
# Lemmas about XER: writing
-/
namespace Asn1

instance : LawfulMonad XM := LawfulMonad.mk' XM
  (id_map := by
    intro α x; funext s
    show (match x s with | .ok (some a, s') => _ | .ok (none, s') => _ | .ub => _ | .abort => _) = x s
    rcases x s with ⟨⟨_⟩ | ⟨_⟩, _⟩ | _ | _ <;> rfl)
  (pure_bind := by intros; rfl)
  (bind_assoc := by
    intro α β γ x f g; funext s
    show (match (match x s with | .ok (some a, s') => f a s' | .ok (none, s') => .ok (none, s') | .ub => .ub | .abort => .abort) with
      | .ok (some a, s') => _ | .ok (none, s') => _ | .ub => _ | .abort => _) =
      (match x s with | .ok (some a, s') => (f a >>= g) s' | .ok (none, s') => .ok (none, s') | .ub => .ub | .abort => .abort)
    rcases x s with ⟨⟨_⟩ | ⟨_⟩, _⟩ | _ | _ <;> rfl)

theorem xm_bind_ok {α β : Type} {x : XM α} {f : α → XM β} {s s' : XerStream} {a : α} (h : x s = .ok (some a, s')) :
    (x >>= f) s = f a s' := by
  show (match x s with | .ok (some a, s') => f a s' | .ok (none, s') => .ok (none, s') | .ub => .ub | .abort => .abort) = _
  rw [h]

theorem xm_bind_none {α β : Type} {x : XM α} {f : α → XM β} {s s' : XerStream} (h : x s = .ok (none, s')) :
    (x >>= f) s = .ok (none, s') := by
  show (match x s with | .ok (some a, s') => f a s' | .ok (none, s') => .ok (none, s') | .ub => .ub | .abort => .abort) = _
  rw [h]

theorem xm_bind_ub {α β : Type} {x : XM α} {f : α → XM β} {s : XerStream} (h : x s = .ub) : (x >>= f) s = .ub := by
  show (match x s with | .ok (some a, s') => f a s' | .ok (none, s') => .ok (none, s') | .ub => .ub | .abort => .abort) = _
  rw [h]

theorem xGet_bind {β : Type} {f : XerStream → XM β} {s : XerStream} : (xGet >>= f) s = f s s := rfl

theorem xSetPos_bind {β : Type} {f : Unit → XM β} {s : XerStream} {p : Nat} :
    (xSetPos p >>= f) s = f () { s with currentByte := p } := rfl

theorem xm_pure {α : Type} {a : α} {s : XerStream} : (pure a : XM α) s = .ok (some a, s) := rfl

theorem xAt_bind {β : Type} {f : Byte → XM β} {s : XerStream} {i : Nat} {b : Byte} (h : s.buf[i]? = some b) :
    (xAt i >>= f) s = f b s := xm_bind_ok (by unfold xAt; rw [h])

theorem xAt_run {s : XerStream} {i : Nat} {b : Byte} (h : s.buf[i]? = some b) : xAt i s = .ok (some b, s) := by
  unfold xAt; rw [h]

/-! ## Writing -/

theorem XerStream.put_nil (s : XerStream) : s.put [] = s := by
  unfold XerStream.put; simp

theorem XerStream.put_put (s : XerStream) (l m : List Byte) (h : s.currentByte + l.length + m.length ≤ s.buf.length) :
    (s.put l).put m = s.put (l ++ m) := by
  unfold XerStream.put
  simp only [List.length_append, XerStream.mk.injEq, and_true, true_and]
  have e1 : (s.buf.take s.currentByte ++ l).length = s.currentByte + l.length := by simp; omega
  refine ⟨?_, by omega⟩
  rw [List.take_left' e1, List.drop_append, e1, List.drop_of_length_le (by omega), List.nil_append, List.drop_drop]
  simp only [List.append_assoc, List.append_cancel_left_eq]
  congr 1; omega

theorem XerStream.put_length (s : XerStream) (l : List Byte) (h : s.currentByte + l.length ≤ s.buf.length) :
    (s.put l).buf.length = s.buf.length := by
  unfold XerStream.put; simp; omega

theorem XerStream.put_get (s : XerStream) (l : List Byte) (h : s.currentByte + l.length ≤ s.buf.length) (i : Nat)
    (hi : s.currentByte + l.length ≤ i) : (s.put l).buf[i]? = s.buf[i]? := by
  unfold XerStream.put
  have e1 : (s.buf.take s.currentByte ++ l).length = s.currentByte + l.length := by simp; omega
  show (s.buf.take s.currentByte ++ l ++ s.buf.drop (s.currentByte + l.length))[i]? = _
  rw [List.getElem?_append_right (by omega), e1, List.getElem?_drop]
  congr 1; omega

theorem XReady.put {s : XerStream} (hs : XReady s) {l : List Byte} (h : s.currentByte + l.length ≤ s.count) :
    XReady (s.put l) := by
  have hf := hs.fits
  refine ⟨?_, ?_, ?_⟩
  · rw [XerStream.put_length _ _ (by omega)]; exact hf
  · exact h
  · intro i h1 h2
    have h1' : s.currentByte + l.length ≤ i := h1
    rw [XerStream.put_get _ _ (by omega) _ h1']
    exact hs.zero i (by omega) h2

theorem XKeeps.refl (s : XerStream) : XKeeps s s := ⟨rfl, rfl, rfl, rfl, rfl, Nat.le_refl _⟩

theorem XKeeps.trans {s t u : XerStream} (h1 : XKeeps s t) (h2 : XKeeps t u) : XKeeps s u := by
  refine ⟨h2.count.trans h1.count, h2.white.trans h1.white, h2.length.trans h1.length, ?_, ?_, Nat.le_trans h1.pos h2.pos⟩
  · have := congrArg (List.take s.currentByte) h2.before
    rw [List.take_take, List.take_take, Nat.min_eq_left h1.pos] at this
    rw [this]; exact h1.before
  · have := h2.behind
    rw [h1.count] at this
    rw [this]; exact h1.behind

theorem XKeeps.put {s : XerStream} (hs : XReady s) {l : List Byte} (h : s.currentByte + l.length ≤ s.count) :
    XKeeps s (s.put l) := by
  have hf := hs.fits
  refine ⟨rfl, rfl, XerStream.put_length _ _ (by omega), ?_, ?_, by show s.currentByte ≤ s.currentByte + l.length; omega⟩
  · unfold XerStream.put
    show (s.buf.take s.currentByte ++ l ++ s.buf.drop (s.currentByte + l.length)).take s.currentByte = _
    rw [List.append_assoc, List.take_left' (by simp; omega)]
  · apply List.ext_getElem?
    intro i
    rw [List.getElem?_drop, List.getElem?_drop, XerStream.put_get _ _ (by omega) _ (by omega)]

/-- `XWrites` for one stream. -/
def XWriteAt (f : XM Unit) (s : XerStream) (l : List Byte) : Prop :=
  ∃ r s', f s = .ok (r, s') ∧ XReady s' ∧ XKeeps s s' ∧
    (r = some () → s' = s.put l ∧ s.currentByte + l.length ≤ s.count) ∧
    (s.currentByte + l.length < s.count → r = some ())

theorem XWriteAt.done {f : XM Unit} {s : XerStream} {l : List Byte} (hs : XReady s) (h : f s = .ok (some (), s.put l))
    (hl : s.currentByte + l.length ≤ s.count) : XWriteAt f s l :=
  ⟨some (), _, h, hs.put hl, XKeeps.put hs hl, fun _ => ⟨rfl, hl⟩, fun _ => rfl⟩

theorem XWriteAt.full {f : XM Unit} {s : XerStream} {l : List Byte} (hs : XReady s) (h : f s = .ok (none, s))
    (hl : s.count ≤ s.currentByte + l.length) : XWriteAt f s l :=
  ⟨none, s, h, hs, XKeeps.refl s, nofun, fun h => by omega⟩

theorem XWriteAt.nil {f : XM Unit} {s : XerStream} (hs : XReady s) (h : f s = .ok (some (), s)) : XWriteAt f s [] :=
  .done hs (by rw [h, XerStream.put_nil]) hs.pos

theorem XWrites.pure : XWrites (pure ()) (fun _ => []) := by
  intro s hs
  exact ⟨some (), s, rfl, hs, XKeeps.refl s, fun _ => ⟨(XerStream.put_nil s).symm, hs.pos⟩, fun _ => rfl⟩

theorem XWrites.bind {f g : XM Unit} {l m : Bool → List Byte} (hf : XWrites f l) (hg : XWrites g m) :
    XWrites (do f; g) (fun w => l w ++ m w) := by
  intro s hs
  obtain ⟨r, s1, e1, r1, k1, t1, c1⟩ := hf s hs
  cases r with
  | none =>
    refine ⟨none, s1, xm_bind_none e1, r1, k1, (fun h => by cases h), fun h => ?_⟩
    have := c1 (by rw [List.length_append] at h; omega)
    cases this
  | some u =>
    obtain ⟨t1, b1⟩ := t1 rfl
    obtain ⟨r2, s2, e2, rr2, k2, t2, c2⟩ := hg s1 r1
    have hw : s1.white = s.white := k1.white
    have hcb : s1.currentByte = s.currentByte + (l s.white).length := by rw [t1]; rfl
    refine ⟨r2, s2, (xm_bind_ok e1).trans e2, rr2, k1.trans k2, fun h => ?_, fun h => ?_⟩
    · obtain ⟨t2, b2⟩ := t2 h
      rw [hw, hcb, k1.count] at b2
      have hf := hs.fits
      refine ⟨?_, by rw [List.length_append]; omega⟩
      rw [t2, hw, t1, XerStream.put_put _ _ _ (by omega)]
    · rw [List.length_append] at h
      exact c2 (by rw [hw, hcb, k1.count]; omega)

theorem XWrites.congr {f : XM Unit} {l m : Bool → List Byte} (hf : XWrites f l) (h : ∀ w, l w = m w) : XWrites f m := by
  have : l = m := funext h
  rw [← this]; exact hf

theorem appendString_writes (v : List Byte) : XWrites (appendString v) (fun _ => cstr v) := by
  intro s hs
  have hf := hs.fits
  show XWriteAt _ s (cstr v)
  by_cases h : s.currentByte + (cstr v).length ≥ s.count
  · refine .full hs ?_ h
    unfold appendString
    dsimp only
    rw [if_pos h]
  · refine .done hs ?_ (by omega)
    unfold appendString
    dsimp only
    rw [if_neg h]
    have h0 : (s.buf.drop s.currentByte).findIdx? (· == 0#8) = some 0 := by
      have hz := hs.zero s.currentByte (Nat.le_refl _) (by omega)
      have e : s.buf.drop s.currentByte = 0#8 :: s.buf.drop (s.currentByte + 1) := by
        rw [List.getElem?_eq_some_iff] at hz
        obtain ⟨hlt, hz⟩ := hz
        rw [← hz]; exact List.drop_eq_getElem_cons hlt
      rw [e, List.findIdx?_cons]; rfl
    rw [h0]
    dsimp only
    rw [if_pos (by omega), Nat.add_zero]
    have e : s.buf.take s.currentByte ++ cstr v ++ [0#8] ++ s.buf.drop (s.currentByte + (cstr v).length + 1) =
        s.buf.take s.currentByte ++ cstr v ++ s.buf.drop (s.currentByte + (cstr v).length) := by
      have hz := hs.zero (s.currentByte + (cstr v).length) (by omega) (by omega)
      rw [List.getElem?_eq_some_iff] at hz
      obtain ⟨hlt, hz⟩ := hz
      rw [List.drop_eq_getElem_cons hlt, hz]
      simp
    rw [e]
    rfl

theorem cstr_eq_self {v : List Byte} (h : ∀ b ∈ v, b ≠ 0#8) : cstr v = v := by
  unfold cstr
  induction v with
  | nil => rfl
  | cons a l ih =>
    rw [List.takeWhile_cons_of_pos (by simpa using h a (by simp)), ih fun b hb => h b (by simp [hb])]

theorem appendString_writes' {v : List Byte} (h : ∀ b ∈ v, b ≠ 0#8) : XWrites (appendString v) (fun _ => v) := by
  have := appendString_writes v
  rwa [cstr_eq_self h] at this

theorem xPut_put {s : XerStream} {b : Byte} (h : s.currentByte < s.buf.length) : xPut b s = .ok (some (), s.put [b]) := by
  unfold xPut XerStream.put
  rw [if_pos h, List.set_eq_take_append_cons_drop, if_pos h]
  simp

theorem putSpaceLoop_run : ∀ (n : Nat) (s : XerStream), s.currentByte + n ≤ s.buf.length →
    putSpaceLoop n s = .ok (some (), s.put (List.replicate n 0x20#8)) := by
  intro n
  induction n with
  | zero => intro s h; show Res.ok (some (), s) = _; rw [List.replicate_zero, XerStream.put_nil]
  | succ n ih =>
    intro s h
    show (xPut 0x20#8 >>= fun _ => putSpaceLoop n) s = _
    rw [xm_bind_ok (xPut_put (by omega)), ih _ (by rw [XerStream.put_length _ _ (by simp; omega)]; show s.currentByte + 1 + n ≤ _; omega),
      XerStream.put_put _ _ _ (by simp; omega)]
    rfl

theorem putSpace_writes (level : Int) : XWrites (putSpace level) (fun w => indent w level) := by
  intro s hs
  have hf := hs.fits
  show XWriteAt _ s (indent s.white level)
  have e : putSpace level s = (if !s.white then Pure.pure () else if level < 0 then Pure.pure ()
    else if s.currentByte + 2 * level.toNat ≥ s.count then xFail else putSpaceLoop (2 * level.toNat) : XM Unit) s := rfl
  unfold indent
  by_cases hw : s.white = true
  · rw [hw, if_neg (by simp)] at e
    by_cases hl : level < 0
    · rw [if_pos hl] at e
      rw [if_neg (by omega)]
      exact .nil hs e
    · rw [if_neg hl] at e
      rw [if_pos ⟨hw, by omega⟩]
      by_cases hc : s.currentByte + 2 * level.toNat ≥ s.count
      · rw [if_pos hc] at e
        exact .full hs e (by simp; omega)
      · rw [if_neg hc, putSpaceLoop_run _ _ (by omega)] at e
        exact .done hs e (by simp; omega)
  · have hw : s.white = false := by simpa using hw
    rw [hw, if_pos (by simp)] at e
    rw [hw, if_neg (by simp)]
    exact .nil hs e

theorem putNL_writes : XWrites putNL (fun w => if w then [0x0A#8] else []) := by
  intro s hs
  have hf := hs.fits
  show XWriteAt _ s (if s.white then [0x0A#8] else [])
  have e : putNL s = (if !s.white then Pure.pure () else if s.currentByte ≥ s.count then xFail else xPut 0x0A#8 : XM Unit) s := rfl
  by_cases hw : s.white = true
  · rw [hw, if_neg (by simp)] at e
    rw [hw, if_pos rfl]
    by_cases hc : s.currentByte ≥ s.count
    · rw [if_pos hc] at e
      exact .full hs e (by simp; omega)
    · rw [if_neg hc, xPut_put (by omega)] at e
      exact .done hs e (by simp; omega)
  · have hw : s.white = false := by simpa using hw
    rw [hw, if_pos (by simp)] at e
    rw [hw, if_neg (by simp)]
    exact .nil hs e

theorem putNLIf_writes (level : Int) : XWrites (putNLIf level) (fun w => newLine w level) := by
  unfold putNLIf newLine
  by_cases h : level ≥ 0
  · rw [if_pos h]
    refine putNL_writes.congr fun w => ?_
    cases w <;> simp [h]
  · rw [if_neg h]
    refine XWrites.pure.congr fun w => ?_
    rw [if_neg (by omega)]

theorem isNameChar_ne_zero {b : Byte} (h : IsNameChar b) : b ≠ 0#8 := by
  intro hb
  subst hb
  revert h
  unfold IsNameChar text
  decide

theorem GoodTag.noNul {tag : List Byte} (h : GoodTag tag) : NoNul tag := fun b hb => isNameChar_ne_zero (h.2.2 b hb)

theorem PlainText.noNul {l : List Byte} (h : PlainText l) : NoNul l := fun b hb => (h b hb).2

theorem XWrites.bind' {f g : XM Unit} {l m k : Bool → List Byte} (hf : XWrites f l) (hg : XWrites g m) (h : ∀ w, l w ++ m w = k w) :
    XWrites (do f; g) k := (hf.bind hg).congr h

theorem appendString_one {c : Byte} (h : c ≠ 0#8) : XWrites (appendString [c]) (fun _ => [c]) :=
  appendString_writes' (by simpa using h)

theorem encodePrimitiveElement_writes {tag value : List Byte} {level : Int} (ht : NoNul tag) (hv : NoNul value) :
    XWrites (encodePrimitiveElement tag value level) (fun w => line w level (element tag value)) := by
  unfold encodePrimitiveElement
  rw [cstr_eq_self hv]
  by_cases h : value = []
  · rw [if_pos (by rw [h]; rfl)]
    refine ((putSpace_writes level).bind ((appendString_one (by decide)).bind ((appendString_writes' ht).bind
      ((appendString_one (by decide)).bind ((appendString_one (by decide)).bind (putNLIf_writes level)))))).congr fun w => ?_
    simp [line, element, h, emptyTag, text]
  · rw [if_neg (by simpa using h)]
    refine ((putSpace_writes level).bind ((appendString_one (by decide)).bind ((appendString_writes' ht).bind
      ((appendString_one (by decide)).bind ((appendString_writes' hv).bind ((appendString_one (by decide)).bind
      ((appendString_one (by decide)).bind ((appendString_writes' ht).bind
      ((appendString_one (by decide)).bind (putNLIf_writes level)))))))))).congr fun w => ?_
    simp [line, element, h, startTag, endTag, text]

/-- The text of attributes as the encoder writes it: `name="value"` one after the other. -/
def attrsText (attrs : XmlAttrs) : List Byte := attrs.flatMap fun a => a.1 ++ text ['=', '"'] ++ a.2 ++ text ['"']

theorem encodeAttributes_writes : ∀ (attrs : XmlAttrs), (∀ a ∈ attrs, NoNul a.1 ∧ NoNul a.2) →
    XWrites (encodeAttributes attrs) (fun _ => attrsText attrs)
  | [], _ => XWrites.pure
  | (n, v) :: l, h => by
    have h1 := h (n, v) (by simp)
    have ih := encodeAttributes_writes l fun a ha => h a (by simp [ha])
    show XWrites (do appendString n; appendString [0x3D#8]; appendString [0x22#8]; appendString v; appendString [0x22#8]; encodeAttributes l) _
    refine ((appendString_writes' h1.1).bind ((appendString_one (by decide)).bind ((appendString_one (by decide)).bind
      ((appendString_writes' h1.2).bind ((appendString_one (by decide)).bind ih))))).congr fun w => by
        simp [attrsText, text]

theorem encodeElementStart_writes {tag : List Byte} {level : Int} (ht : NoNul tag) :
    XWrites (encodeElementStart tag [] level) (fun w => if tag = [] then [] else line w level (startTag tag)) := by
  unfold encodeElementStart
  rw [cstr_eq_self ht]
  by_cases h : tag = []
  · rw [if_pos (by rw [h]; rfl)]
    exact XWrites.pure.congr fun w => by rw [if_pos h]
  · rw [if_neg (by simpa using h)]
    refine ((putSpace_writes level).bind ((appendString_one (by decide)).bind ((appendString_writes' ht).bind
      ((encodeAttributes_writes [] (by simp)).bind ((appendString_one (by decide)).bind (putNLIf_writes level)))))).congr fun w => by
        rw [if_neg h]; simp [attrsText, line, startTag, text]

theorem encodeElementEnd_writes {tag : List Byte} {level : Int} (ht : NoNul tag) :
    XWrites (encodeElementEnd tag level) (fun w => if tag = [] then [] else line w level (endTag tag)) := by
  unfold encodeElementEnd
  rw [cstr_eq_self ht]
  by_cases h : tag = []
  · rw [if_pos (by rw [h]; rfl)]
    exact XWrites.pure.congr fun w => by rw [if_pos h]
  · rw [if_neg (by simpa using h)]
    refine ((putSpace_writes level).bind ((appendString_one (by decide)).bind ((appendString_one (by decide)).bind ((appendString_writes' ht).bind
      ((appendString_one (by decide)).bind (putNLIf_writes level)))))).congr fun w => by
        rw [if_neg h]; simp [line, endTag, text]

/-! ### Numbers -/

theorem decFuel_eq : ∀ (k n : Nat), n < 10 ^ k → 0 < k → decFuel k n = decimalNat n := by
  intro k
  induction k with
  | zero => intro n _ h; omega
  | succ k ih =>
    intro n h _
    unfold decFuel decimalNat
    have hd : ∀ d, d < 10 → (BitVec.ofNat 8 (Nat.digitChar d).toNat : Byte) = BitVec.ofNat 8 (0x30 + d) := by decide
    by_cases hn : n < 10
    · rw [if_pos hn, Nat.toDigits_of_lt_base hn]
      simp only [text, List.map_cons, List.map_nil]
      rw [hd n hn]
    · rw [if_neg hn, Nat.toDigits_of_base_le (by omega) (by omega)]
      cases k with
      | zero => omega
      | succ k =>
        rw [ih (n / 10) (by rw [Nat.pow_succ] at h; omega) (by omega)]
        simp only [text, List.map_append, List.map_cons, List.map_nil, decimalNat]
        rw [hd _ (by omega)]

theorem uint2String_eq {n : Nat} (h : n < 2 ^ 64) : uint2String n = decimalNat n :=
  decFuel_eq 20 n (Nat.lt_trans h (by decide)) (by decide)

theorem int2String_eq {v : Int} (h : -(2 ^ 63) ≤ v ∧ v < 2 ^ 63) : int2String v = decimalInt v := by
  have e := uint2String_eq (n := v.natAbs) (by omega)
  unfold int2String decimalInt
  by_cases hv : v < 0
  · rw [if_pos hv, if_pos hv, e]; rfl
  · rw [if_neg hv, if_neg hv, e]; rfl

theorem decimalNat_digit {n : Nat} : ∀ b ∈ decimalNat n, 0x30 ≤ b.toNat ∧ b.toNat ≤ 0x39 := by
  intro b hb
  unfold decimalNat text at hb
  obtain ⟨c, hc, rfl⟩ := List.mem_map.mp hb
  have := Nat.isDigit_of_mem_toDigits (by decide) (by decide) hc
  rw [Char.isDigit_iff_toNat] at this
  simp only [BitVec.toNat_ofNat]
  have h1 : '0'.toNat = 0x30 := rfl
  have h2 : '9'.toNat = 0x39 := rfl
  omega

theorem decimalNat_ne_nil {n : Nat} : decimalNat n ≠ [] := by
  unfold decimalNat text
  simp

theorem decimalNat_plain {n : Nat} : PlainText (decimalNat n) := by
  intro b hb
  have := decimalNat_digit b hb
  constructor <;> intro h <;> subst h <;> revert this <;> decide

theorem decimalInt_plain {v : Int} : PlainText (decimalInt v) := by
  intro b hb
  unfold decimalInt at hb
  rw [List.mem_append] at hb
  rcases hb with hb | hb
  · split at hb
    · revert hb; simp only [text, List.map_cons, List.map_nil, List.mem_singleton]; rintro rfl; decide
    · cases hb
  · exact decimalNat_plain b hb

theorem decimalInt_ne_nil {v : Int} : decimalInt v ≠ [] := by
  unfold decimalInt
  simp [decimalNat_ne_nil]

/-! ### Values -/

theorem boolWord_txt (v : Bool) : (if v then txtTrue else txtFalse) = boolWord v := by cases v <;> rfl

theorem noNul_append {l m : List Byte} (h1 : NoNul l) (h2 : NoNul m) : NoNul (l ++ m) := by
  intro b hb
  rcases List.mem_append.mp hb with h | h
  · exact h1 b h
  · exact h2 b h

theorem boolWord_noNul (v : Bool) : NoNul (boolWord v) := by
  unfold NoNul; cases v <;> decide

theorem xerEncodeBoolean_writes {tag : List Byte} {v : Bool} {level : Int} (ht : NoNul tag) :
    XWrites (xerEncodeBoolean tag v level)
      (fun w => line w level (if tag = [] then emptyTag (boolWord v) else element tag (emptyTag (boolWord v)))) := by
  unfold xerEncodeBoolean
  rw [cstr_eq_self ht, boolWord_txt]
  by_cases h : tag = []
  · rw [if_pos (by rw [h]; rfl)]
    refine (encodePrimitiveElement_writes (boolWord_noNul v) (fun b hb => by cases hb)).congr fun w => ?_
    rw [if_pos h]; rfl
  · rw [if_neg (by simpa using h)]
    have e : [0x3C#8] ++ boolWord v ++ [0x2F#8, 0x3E#8] = emptyTag (boolWord v) := rfl
    rw [e]
    refine (encodePrimitiveElement_writes ht ?_).congr fun w => by rw [if_neg h]
    unfold NoNul; cases v <;> decide

theorem putNL_writes_zero : XWrites putNL (fun w => newLine w 0) :=
  putNL_writes.congr fun w => by cases w <;> rfl

theorem line_neg (w : Bool) (l : List Byte) : line w (-1) l = l := by
  unfold line indent newLine; simp

theorem xerEncodeEnumerated_writes {tag value : List Byte} {level : Int} (ht : NoNul tag) (hv : NoNul value) (hl : value.length ≤ 252) :
    XWrites (xerEncodeEnumerated tag value level)
      (fun w => if tag = [] then line w level (emptyTag value)
        else indent w level ++ element tag (emptyTag value) ++ newLine w 0) := by
  unfold xerEncodeEnumerated
  rw [cstr_eq_self ht, cstr_eq_self hv, if_neg (by omega)]
  by_cases h : tag = []
  · rw [if_pos (by rw [h]; rfl)]
    refine (encodePrimitiveElement_writes hv (fun b hb => by cases hb)).congr fun w => ?_
    rw [if_pos h]; rfl
  · rw [if_neg (by simpa using h)]
    refine ((putSpace_writes level).bind ((encodeElementStart_writes ht).bind ((encodePrimitiveElement_writes hv (fun b hb => by cases hb)).bind
      ((encodeElementEnd_writes ht).bind putNL_writes_zero)))).congr fun w => ?_
    simp [if_neg h, line_neg, element, emptyTag, text]

theorem hexDigit_eq : ∀ n, n < 16 → hexDigit n = hexUpper n := by decide

theorem hexUpper_ne : ∀ n, n < 16 → hexUpper n ≠ 0#8 ∧ hexUpper n ≠ 0x3C#8 := by decide

theorem hexLoop_writes (value post : List Byte) : ∀ (l pre : List Byte), value = pre ++ l ++ post →
    XWrites (hexLoop value l.length pre.length) (fun _ => hexText l)
  | [], pre, _ => XWrites.pure
  | b :: l, pre, h => by
    have ih := hexLoop_writes value post l (pre ++ [b]) (by rw [h]; simp)
    rw [List.length_append] at ih
    have hb : value[pre.length]? = some b := by rw [h]; simp
    show XWrites (do let b ← xArrGet value pre.length; appendString [hexDigit (b.toNat / 16), hexDigit (b.toNat % 16)]; hexLoop value l.length (pre.length + 1)) _
    have e : xArrGet value pre.length = pure b := by unfold xArrGet; rw [hb]
    have hlt := b.isLt
    rw [e, pure_bind, hexDigit_eq _ (by omega), hexDigit_eq _ (by omega)]
    refine (appendString_writes' ?_).bind' ih fun w => by simp [hexText]
    intro c hc
    rcases List.mem_cons.mp hc with rfl | hc
    · exact (hexUpper_ne _ (by omega)).1
    · rw [List.mem_singleton] at hc; subst hc
      exact (hexUpper_ne _ (by omega)).1

theorem bitLoop_writes (value : List Byte) : ∀ (n i : Nat), i + n ≤ 8 * value.length →
    XWrites (bitLoop value n i) (fun _ => bitText (((bytesBits value).drop i).take n))
  | 0, i, _ => by
    refine XWrites.pure.congr fun w => by simp [bitText]
  | n + 1, i, h => by
    have ih := bitLoop_writes value n (i + 1) (by omega)
    have hlt : i / 8 < value.length := by omega
    have hb : value[i / 8]? = some value[i / 8] := List.getElem?_eq_getElem hlt
    show XWrites (do let b ← xArrGet value (i / 8); appendString [if b.getMsbD (i % 8) then 0x31#8 else 0x30#8]; bitLoop value n (i + 1)) _
    have e : xArrGet value (i / 8) = pure value[i / 8] := by unfold xArrGet; rw [hb]
    rw [e, pure_bind]
    refine (appendString_one (by split <;> decide)).bind' ih fun w => ?_
    have hl : i < (bytesBits value).length := by rw [bytesBits_length]; omega
    have e2 : (bytesBits value)[i]'hl = (value[i / 8]).getMsbD (i % 8) := by
      have := bytesBits_getD value i
      simpa [bitAt, List.getD, hb, List.getElem?_eq_getElem hl] using this
    rw [List.drop_eq_getElem_cons hl, List.take_succ_cons, e2]
    rfl

theorem arcsLoop_writes : ∀ (l : List Nat), (∀ v ∈ l, v < 2 ^ 64) →
    XWrites (arcsLoop l) (fun _ => l.flatMap fun w => text ['.'] ++ decimalNat w)
  | [], _ => XWrites.pure
  | v :: l, h => by
    have ih := arcsLoop_writes l fun w hw => h w (by simp [hw])
    show XWrites (do appendString (0x2E#8 :: uint2String v); arcsLoop l) _
    rw [uint2String_eq (h v (by simp))]
    refine (appendString_writes' ?_).bind' ih fun w => by simp [text]
    intro b hb
    rcases List.mem_cons.mp hb with rfl | hb
    · decide
    · exact (decimalNat_plain b hb).2

theorem wrapped_writes {tag c : List Byte} {level : Int} {f : XM Unit} (ht : NoNul tag) (hf : XWrites f (fun _ => c)) :
    XWrites (do putSpace level; encodeElementStart tag [] (-1); f; encodeElementEnd tag (-1); putNL)
      (fun w => lineNL w level (wrapped tag c)) := by
  refine ((putSpace_writes level).bind ((encodeElementStart_writes ht).bind (hf.bind
      ((encodeElementEnd_writes ht).bind putNL_writes_zero)))).congr fun w => ?_
  unfold lineNL wrapped
  by_cases h : tag = []
  · simp [h]
  · simp [h, line_neg]

theorem xerEncodeOctetString_writes {tag value : List Byte} {level : Int} {n : Nat} (ht : NoNul tag) (hn : n ≤ value.length) :
    XWrites (xerEncodeOctetString tag value n level) (fun w => lineNL w level (wrapped tag (hexText (value.take n)))) := by
  refine wrapped_writes ht ?_
  have := hexLoop_writes value (value.drop n) (value.take n) [] (by simp)
  rwa [List.length_take, Nat.min_eq_left hn] at this

theorem xerEncodeBitString_writes {tag value : List Byte} {level : Int} {n : Nat} (ht : NoNul tag) (hn : n ≤ 8 * value.length) :
    XWrites (xerEncodeBitString tag value n level) (fun w => lineNL w level (wrapped tag (bitText ((bytesBits value).take n)))) := by
  refine wrapped_writes ht ?_
  have := bitLoop_writes value n 0 (by omega)
  simpa using this

theorem xerEncodeObjectIdentifier_writes {tag : List Byte} {values : List Nat} {level : Int} (ht : NoNul tag) (hv : ∀ v ∈ values, v < 2 ^ 64) :
    XWrites (xerEncodeObjectIdentifier tag values level) (fun w => lineNL w level (wrapped tag (oidText values))) := by
  refine wrapped_writes ht ?_
  cases values with
  | nil => exact XWrites.pure
  | cons v l =>
    refine (appendString_writes' ?_).bind' (arcsLoop_writes l fun w hw => hv w (by simp [hw])) fun w => ?_
    · rw [uint2String_eq (hv v (by simp))]; exact decimalNat_plain.noNul
    · rw [uint2String_eq (hv v (by simp))]; rfl

theorem xerEncodeNull_writes {tag : List Byte} {level : Int} (ht : NoNul tag) :
    XWrites (xerEncodeNull tag level) (fun w => line w level (emptyTag tag)) :=
  encodePrimitiveElement_writes ht (fun b hb => by cases hb)

theorem xerEncodeInteger_writes {tag : List Byte} {v level : Int} (ht : NoNul tag) (hv : -(2 ^ 63) ≤ v ∧ v < 2 ^ 63) :
    XWrites (xerEncodeInteger tag v level) (fun w => line w level (element tag (decimalInt v))) := by
  unfold xerEncodeInteger
  rw [int2String_eq hv]
  exact encodePrimitiveElement_writes ht decimalInt_plain.noNul

theorem xerEncodePosInteger_writes {tag : List Byte} {v : Nat} {level : Int} (ht : NoNul tag) (hv : v < 2 ^ 64) :
    XWrites (xerEncodePosInteger tag v level) (fun w => line w level (element tag (decimalNat v))) := by
  unfold xerEncodePosInteger
  rw [uint2String_eq hv]
  exact encodePrimitiveElement_writes ht decimalNat_plain.noNul

theorem xerEncodeComment_writes {c : List Byte} (hc : NoNul c) :
    XWrites (xerEncodeComment c) (fun _ => text ['<', '!', '-', '-'] ++ c ++ text ['-', '-', '>']) := by
  unfold xerEncodeComment
  refine ((appendString_writes' (by decide)).bind ((appendString_writes' hc).bind (appendString_writes' (by decide)))).congr fun w => ?_
  simp [text, chars]

end Asn1
