import Verif.Model.BitStream
import Verif.Spec.Stream
import Verif.Proof.Bits
/-! Running the model: the monad, memory access, and the general rules for `Appends`, `Reads` ... -/
namespace Asn1

theorem bind_def {α β : Type} (x : M α) (f : α → M β) (s : BitStream) :
    (x >>= f) s = match x s with
      | .ok (a, s') => f a s'
      | .ub => .ub
      | .abort => .abort := rfl

theorem bind_ok {α β : Type} {x : M α} {f : α → M β} {s s' : BitStream} {a : α} (h : x s = .ok (a, s')) :
    (x >>= f) s = f a s' := by rw [bind_def, h]

@[simp] theorem pure_run {α : Type} (a : α) (s : BitStream) : (pure a : M α) s = .ok (a, s) := rfl
@[simp] theorem getS_run (s : BitStream) : getS s = .ok (s, s) := rfl
@[simp] theorem modS_run (f : BitStream → BitStream) (s : BitStream) : modS f s = .ok ((), f s) := rfl

instance : LawfulMonad M := LawfulMonad.mk'
  (id_map := by intro α x; funext s; show (x >>= fun a => pure a) s = _; rw [bind_def]; split <;> simp_all)
  (pure_bind := by intros; rfl)
  (bind_assoc := by
    intro α β γ x f g; funext s
    simp only [bind_def]
    cases h : x s with
    | ok p => rfl
    | ub => rfl
    | abort => rfl)

@[simp] theorem getS_bind {β : Type} (f : BitStream → M β) (s : BitStream) : (getS >>= f) s = f s s := rfl
@[simp] theorem modS_bind {β : Type} (g : BitStream → BitStream) (f : Unit → M β) (s : BitStream) :
    (modS g >>= f) s = f () (g s) := rfl
@[simp] theorem pure_bind_run {α β : Type} (a : α) (f : α → M β) (s : BitStream) :
    ((pure a : M α) >>= f) s = f a s := rfl

theorem bufGet_bind {β : Type} {i : Nat} {s : BitStream} (h : i < s.buf.length) (f : Byte → M β) :
    (bufGet i >>= f) s = f (s.buf.getD i 0#8) s := by
  apply bind_ok
  simp [bufGet, List.getElem?_eq_getElem h]

theorem tblGet_bind {α β : Type} {t : List α} {i : Nat} {b : α} {s : BitStream} (h : t[i]? = some b)
    (f : α → M β) : (tblGet t i >>= f) s = f b s := by
  apply bind_ok; simp [tblGet, h]

theorem bufAnd_bind {β : Type} {i : Nat} {m : Byte} {s : BitStream} (h : i < s.buf.length) (f : Unit → M β) :
    (bufAnd i m >>= f) s = f () { s with buf := s.buf.set i (s.buf.getD i 0#8 &&& m) } := by
  apply bind_ok
  simp only [bufAnd]
  rw [bufGet_bind h]; simp [bufSet, h]

theorem bufOr_run {i : Nat} {m : Byte} {s : BitStream} (h : i < s.buf.length) :
    bufOr i m s = .ok ((), { s with buf := s.buf.set i (s.buf.getD i 0#8 ||| m) }) := by
  simp only [bufOr]
  rw [bufGet_bind h]; simp [bufSet, h]

theorem bufAnd_run {i : Nat} {m : Byte} {s : BitStream} (h : i < s.buf.length) :
    bufAnd i m s = .ok ((), { s with buf := s.buf.set i (s.buf.getD i 0#8 &&& m) }) := by
  simp only [bufAnd]
  rw [bufGet_bind h]; simp [bufSet, h]

theorem bufOr_bind {β : Type} {i : Nat} {m : Byte} {s : BitStream} (h : i < s.buf.length) (f : Unit → M β) :
    (bufOr i m >>= f) s = f () { s with buf := s.buf.set i (s.buf.getD i 0#8 ||| m) } :=
  bind_ok (bufOr_run h)

theorem assertInBounds_run {s : BitStream} (h : s.pos ≤ 8 * s.count) : assertInBounds s = .ok ((), s) := by
  simp only [assertInBounds, getS_bind, assertC, inBounds]
  rw [if_pos]
  simp only [BitStream.pos] at h
  simp; omega

theorem assertC_bind {β : Type} {c : Bool} {s : BitStream} (h : c = true) (f : Unit → M β) :
    (assertC c >>= f) s = f () s := by
  subst h; rfl

theorem masksb_get {n : Nat} (h : n ≤ 8) : masksb[n]? = some (BitVec.ofNat 8 (2 ^ n - 1)) := by
  revert n; decide

theorem masks_get {n : Nat} (h : n < 8) : masks[n]? = some (BitVec.ofNat 8 (2 ^ (7 - n))) := by
  revert n; decide

theorem masksb_bit {n j : Nat} (h : n ≤ 8) (hj : j < 8) :
    (BitVec.ofNat 8 (2 ^ n - 1)).getMsbD j = decide (8 ≤ n + j) := by
  have : ∀ n, n ≤ 8 → ∀ j, j < 8 → (BitVec.ofNat 8 (2 ^ n - 1)).getMsbD j = decide (8 ≤ n + j) := by decide
  exact this n h j hj

theorem masks_bit {n j : Nat} (h : n < 8) (hj : j < 8) :
    (BitVec.ofNat 8 (2 ^ (7 - n))).getMsbD j = decide (j = n) := by
  have : ∀ n, n < 8 → ∀ j, j < 8 → (BitVec.ofNat 8 (2 ^ (7 - n))).getMsbD j = decide (j = n) := by decide
  exact this n h j hj

/-- A byte and a mask with one bit set: the test of that bit. -/
theorem and_mask_ne {b : Byte} {n : Nat} (h : n < 8) :
    decide (b &&& BitVec.ofNat 8 (2 ^ (7 - n)) ≠ 0#8) = b.getMsbD n := by
  have : ∀ n, n < 8 → ∀ b : Byte, decide (b &&& BitVec.ofNat 8 (2 ^ (7 - n)) ≠ 0#8) = b.getMsbD n := by
    intro n hn b
    cases hb : b.getMsbD n
    · simp only [decide_eq_false_iff_not, ne_eq, Decidable.not_not]
      apply BitVec.eq_of_getMsbD_eq
      intro i hi
      simp only [BitVec.getMsbD_and, masks_bit hn hi]
      by_cases e : i = n
      · subst e; simp [hb]
      · simp [e]
    · simp only [decide_eq_true_eq]
      intro e
      have := congrArg (fun x => x.getMsbD n) e
      simp [BitVec.getMsbD_and, masks_bit hn hn, hb] at this
  exact this n h b

/-! ### Rules -/

theorem Frame.refl (s : BitStream) : Frame s s := ⟨rfl, rfl, fun _ _ => rfl⟩

theorem Frame.trans {s t u : BitStream} (h : Frame s t) (h' : Frame t u) : Frame s u :=
  ⟨h'.count.trans h.count, h'.len.trans h.len,
   fun i hi => (h'.tail i (by rw [h.count]; exact hi)).trans (h.tail i hi)⟩

theorem Writes.appends {α : Type} {f : M α} {a : α} {w : List Bool} (h : Writes f a w) : Appends f a w := by
  intro s bs hs hroom
  obtain ⟨s', hr, hwf, hc, hl, hp, hb⟩ := h s hs.wf (by rw [hs.pos]; exact hroom)
  refine ⟨s', hr, ⟨hwf, ?_, ?_, ?_⟩, ⟨hc, hl, ?_⟩⟩
  · rw [hp, hs.pos, List.length_append]
  · rw [hc, List.length_append]; exact hroom
  · intro i hi
    rw [hb i, hs.pos, List.getElem?_append]
    rw [hc] at hi
    by_cases h1 : i < bs.length
    · rw [if_neg (by omega), if_pos h1, hs.bits i hi]
    · by_cases h2 : i < bs.length + w.length
      · rw [if_pos ⟨by omega, h2⟩, if_neg h1]
      · rw [if_neg (by omega), if_neg h1, hs.bits i hi, List.getElem?_eq_none (by omega),
          List.getElem?_eq_none (by omega)]
  · intro i hi
    rw [hb i, if_neg]
    rw [hs.pos]; omega

theorem Appends.pure {α : Type} (a : α) : Appends (pure a : M α) a [] := by
  intro s bs hs _
  exact ⟨s, rfl, by simpa using hs, Frame.refl s⟩

theorem Appends.bind {α β : Type} {f : M α} {g : α → M β} {a : α} {b : β} {w1 w2 : List Bool}
    (hf : Appends f a w1) (hg : Appends (g a) b w2) : Appends (f >>= g) b (w1 ++ w2) := by
  intro s bs hs hroom
  rw [List.length_append] at hroom
  obtain ⟨s1, hr1, he1, hf1⟩ := hf s bs hs (by omega)
  obtain ⟨s2, hr2, he2, hf2⟩ := hg s1 (bs ++ w1) he1 (by rw [List.length_append, hf1.count]; omega)
  refine ⟨s2, ?_, ?_, hf1.trans hf2⟩
  · rw [bind_ok hr1, hr2]
  · rw [← List.append_assoc]; exact he2

theorem Appends.congr {α : Type} {f : M α} {a : α} {w w' : List Bool} (hf : Appends f a w) (h : w = w') :
    Appends f a w' := h ▸ hf

theorem Reads.pure {α : Type} (a : α) : Reads (pure a : M α) a [] := by
  intro s rest hs
  exact ⟨s, rfl, hs, rfl, rfl⟩

theorem Reads.bind {α β : Type} {f : M α} {g : α → M β} {a : α} {b : β} {w1 w2 : List Bool}
    (hf : Reads f a w1) (hg : Reads (g a) b w2) : Reads (f >>= g) b (w1 ++ w2) := by
  intro s rest hs
  obtain ⟨s1, hr1, he1, hb1, hc1⟩ := hf s (w2 ++ rest) (by simpa using hs)
  obtain ⟨s2, hr2, he2, hb2, hc2⟩ := hg s1 rest he1
  exact ⟨s2, by rw [bind_ok hr1, hr2], he2, hb2.trans hb1, hc2.trans hc1⟩

theorem Reads.congr {α : Type} {f : M α} {a : α} {w w' : List Bool} (hf : Reads f a w) (h : w = w') :
    Reads f a w' := h ▸ hf

end Asn1
