import Verif.Model.Oid
import Verif.Spec.Oid
import Verif.Proof.Strings
/-! Object identifiers. -/
namespace Asn1

/-- Base-128 digits, least significant first. -/
def leDigits (n : Nat) : List Nat :=
  if n = 0 then [] else n % 128 :: leDigits (n / 128)
termination_by n
decreasing_by omega

theorem subidLead_eq (n : Nat) : subidLead n = (leDigits n).reverse.map (128 + ·) := by
  induction n using Nat.strongRecOn with
  | _ n ih =>
    rw [subidLead, leDigits]
    by_cases h : n = 0
    · simp [h]
    · rw [if_neg h, if_neg h, ih (n / 128) (by omega)]; simp

theorem leDigits_length (k : Nat) : ∀ n, n < 128 ^ k → (leDigits n).length ≤ k := by
  induction k with
  | zero => intro n h; rw [leDigits, if_pos (by simpa using h)]; simp
  | succ k ih =>
    intro n h
    rw [leDigits]
    split
    · simp
    · simp only [List.length_cons]
      have := ih (n / 128) (by rw [Nat.pow_succ] at h; omega)
      omega

theorem leDigits_lt (n : Nat) : ∀ d ∈ leDigits n, d < 128 := by
  induction n using Nat.strongRecOn with
  | _ n ih =>
    rw [leDigits]
    by_cases h : n = 0
    · simp [h]
    · rw [if_neg h]
      intro d hd
      rcases List.mem_cons.1 hd with h1 | h1
      · omega
      · exact ih (n / 128) (by omega) d h1

theorem subidOctets_length {n : Nat} (h : n < 2 ^ 64) : (subidOctets n).length ≤ 10 := by
  have := leDigits_length 9 (n / 128) (by omega)
  simp only [subidOctets, subidLead_eq]
  simp; omega

theorem subidLoop_eq (room : Nat) : ∀ (v : U64) (tmp : List Byte), v.toNat < 128 ^ (room + 1) →
    subidLoop (room + 1) v tmp = pure (tmp ++ (v.toNat % 128 :: leDigits (v.toNat / 128)).map (BitVec.ofNat 8)) := by
  induction room with
  | zero =>
    intro v tmp h
    have h1 : v / 128#64 = 0#64 := by
      apply BitVec.eq_of_toNat_eq
      simp; omega
    have h2 : (v % 128#64).setWidth 8 = BitVec.ofNat 8 (v.toNat % 128) := by
      apply BitVec.eq_of_toNat_eq; simp
    simp only [subidLoop, h1, if_true, h2]
    rw [show v.toNat / 128 = 0 by omega, leDigits]
    simp
  | succ room ih =>
    intro v tmp h
    have h2 : (v % 128#64).setWidth 8 = BitVec.ofNat 8 (v.toNat % 128) := by
      apply BitVec.eq_of_toNat_eq; simp
    have h3 : (v / 128#64).toNat = v.toNat / 128 := by simp
    rw [subidLoop]
    simp only [h2]
    by_cases h1 : v / 128#64 = 0#64
    · rw [if_pos h1]
      have : v.toNat / 128 = 0 := by rw [← h3, h1]; rfl
      rw [this, leDigits]; simp
    · rw [if_neg h1, ih _ _ (by rw [h3, ]; rw [Nat.pow_succ] at h; omega), h3]
      have : v.toNat / 128 ≠ 0 := fun e => h1 (BitVec.eq_of_toNat_eq (by rw [h3, e]; rfl))
      conv => rhs; rw [leDigits, if_neg this]
      simp

theorem or_80 {d : Nat} (h : d < 128) : BitVec.ofNat 8 d ||| 0x80#8 = BitVec.ofNat 8 (128 + d) := by
  have : ∀ k : Fin 128, BitVec.ofNat 8 k.val ||| 0x80#8 = BitVec.ofNat 8 (128 + k.val) := by decide
  exact this ⟨d, h⟩

theorem subidEmit_eq (d : Nat) (ds : List Nat) (hds : ∀ x ∈ ds, x < 128) (n : Nat) : ∀ (i : Nat) (buf : List Byte),
    i + n = ds.length + 1 → buf.length + n ≤ 200 →
    subidEmit ((d :: ds).map (BitVec.ofNat 8)) n i buf =
      pure (buf ++ ((ds.reverse.map (128 + ·) ++ [d]).map (BitVec.ofNat 8)).drop i) := by
  induction n with
  | zero =>
    intro i buf h _
    rw [List.drop_of_length_le (by simp; omega)]; simp [subidEmit]
  | succ n ih =>
    intro i buf h hb
    simp only [subidEmit]
    have hi : i < ((ds.reverse.map (128 + ·) ++ [d]).map (BitVec.ofNat 8)).length := by simp; omega
    have key : (d :: ds)[ds.length - i]? = some ((d :: ds)[ds.length - i]'(by simp; omega)) := List.getElem?_eq_getElem _
    have hl : ((d :: ds).map (BitVec.ofNat 8)).length - i - 1 = ds.length - i := by simp; omega
    rw [hl]
    have ht : ((d :: ds).map (BitVec.ofNat 8))[ds.length - i]? = some (BitVec.ofNat 8 ((d :: ds)[ds.length - i]'(by simp; omega))) := by
      rw [List.getElem?_map, key]; rfl
    have hg : ∀ {β : Type} (f : Byte → M β), (tblGet ((d :: ds).map (BitVec.ofNat 8)) (ds.length - i) >>= f) =
        f (BitVec.ofNat 8 ((d :: ds)[ds.length - i]'(by simp; omega))) := by
      intro β f; funext s; exact tblGet_bind ht f
    rw [hg]
    rw [if_pos (by simp [oidMaxLength]; omega), ih (i + 1) _ (by omega) (by simp; omega), List.append_assoc,
      List.drop_eq_getElem_cons hi, List.singleton_append]
    congr 3
    simp only [List.length_map, List.length_cons]
    by_cases e : i = ds.length
    · subst e
      rw [if_pos (by omega)]
      simp
    · rw [if_neg (by omega)]
      have hlt : i < ds.length := by omega
      have e2 : ds.length - i = (ds.length - 1 - i) + 1 := by omega
      have e3 : (d :: ds)[ds.length - i]'(by simp; omega) = ds[ds.length - 1 - i] := by
        simp only [e2, List.getElem_cons_succ]
      rw [e3, or_80 (hds _ (List.getElem_mem _))]
      rw [List.getElem_map, List.getElem_append_left (by simpa using hlt), List.getElem_map, List.getElem_reverse]

theorem subidEncode_eq (buf : List Byte) (v : U64) (h : buf.length + (subidOctets v.toNat).length ≤ 200) :
    subidEncode buf v = pure (buf ++ (subidOctets v.toNat).map (BitVec.ofNat 8)) := by
  have hv := v.isLt
  unfold subidEncode
  rw [subidLoop_eq 15 v [] (by omega), pure_bind, List.nil_append]
  rw [subidOctets, subidLead_eq] at h ⊢
  rw [subidEmit_eq _ _ (leDigits_lt _) _ 0 buf (by simp) (by simpa using h), List.drop_zero]

theorem tblGet_pure {α : Type} {t : List α} {i : Nat} (h : i < t.length) : tblGet t i = pure t[i] := by
  funext s; simp [tblGet, h]

theorem oidOctets_cons (a : Nat) (l : List Nat) : oidOctets (a :: l) = subidOctets a ++ oidOctets l := rfl

theorem oidOctets_length {l : List Nat} (h : ∀ x ∈ l, x < 2 ^ 64) : (oidOctets l).length ≤ 10 * l.length := by
  induction l with
  | nil => simp [oidOctets]
  | cons a t ih =>
    have := subidOctets_length (h a (by simp))
    have := ih (fun x hx => h x (by simp [hx]))
    rw [oidOctets_cons]; simp; omega

theorem toNats_lt (l : List U64) : ∀ x ∈ l.map BitVec.toNat, x < 2 ^ 64 := by
  intro x hx
  obtain ⟨y, _, rfl⟩ := List.mem_map.1 hx
  exact y.isLt

theorem subidsEncode_eq (o : Oid) (n : Nat) : ∀ (i : Nat) (buf : List Byte), i + n ≤ o.values.length →
    buf.length + 10 * n ≤ 200 →
    subidsEncode o n i buf =
      pure (buf ++ (oidOctets (((o.values.drop i).take n).map BitVec.toNat)).map (BitVec.ofNat 8)) := by
  induction n with
  | zero => intro i buf _ _; simp [subidsEncode, oidOctets]
  | succ n ih =>
    intro i buf h hb
    have hi : i < o.values.length := by omega
    have hl := subidOctets_length o.values[i].isLt
    rw [subidsEncode, tblGet_pure hi, pure_bind, subidEncode_eq _ _ (by omega), pure_bind, ih _ _ (by omega) (by simp; omega),
      List.drop_eq_getElem_cons hi, List.take_succ_cons, List.map_cons, oidOctets_cons, List.map_append, List.append_assoc]

theorem octetsBits_eq {l : List Nat} (h : ∀ x ∈ l, x < 256) : bytesBits (l.map (BitVec.ofNat 8)) = l.flatMap (bitsMsb 8) := by
  induction l with
  | nil => rfl
  | cons a t ih =>
    rw [List.map_cons, bytesBits_cons, ih (fun x hx => h x (by simp [hx])), List.flatMap_cons, byteBits, BitVec.toNat_ofNat,
      Nat.mod_eq_of_lt (h a (by simp))]

theorem subidOctets_lt (n : Nat) : ∀ x ∈ subidOctets n, x < 256 := by
  intro x hx
  rw [subidOctets, subidLead_eq] at hx
  simp only [List.mem_append, List.mem_map, List.mem_reverse, List.mem_singleton] at hx
  rcases hx with ⟨y, hy, rfl⟩ | rfl
  · have := leDigits_lt _ y hy; omega
  · omega

theorem oidOctets_lt (l : List Nat) : ∀ x ∈ oidOctets l, x < 256 := by
  intro x hx
  obtain ⟨y, _, hy⟩ := List.mem_flatMap.1 hx
  exact subidOctets_lt y x hy

theorem forM_appends (l : List Byte) : Appends (l.forM fun b => do let _ ← appendByte0 b; pure ()) () (bytesBits l) := by
  induction l with
  | nil => exact Appends.pure ()
  | cons b t ih =>
    rw [bytesBits_cons]
    refine Appends.bind (a := PUnit.unit) (g := fun _ => t.forM fun b => do let _ ← appendByte0 b; pure ()) ?_ ih
    have := (appendByte0_writes b).appends.bind (g := fun _ => (pure () : M Unit)) (Appends.pure ())
    rwa [List.append_nil] at this

theorem oidEmit_appends {l : List Nat} (h : ∀ x ∈ l, x < 256) (hl : l.length ≤ 200) :
    Appends (oidEmit (l.map (BitVec.ofNat 8))) () (oidCode l) := by
  unfold oidEmit oidCode
  rw [← octetsBits_eq h, List.length_map]
  exact (fragLastLength_appends (n := l.length) (by omega)).bind (forM_appends _)

theorem oidSubids_take {vs : List U64} (h : 2 ≤ vs.length) (k : Nat) :
    oidOctets (oidSubids ((vs.take (k + 2)).map BitVec.toNat)) =
      subidOctets (40 * vs[0].toNat + vs[1].toNat) ++ oidOctets (((vs.drop 2).take (k + 2 - 2)).map BitVec.toNat) := by
  match vs, h with
  | a :: b :: t, _ => simp [oidSubids, oidOctets_cons]

/-- The subidentifiers that the encoder of object identifiers sends. -/
theorem oidEncode_appends {o : Oid} (h20 : o.values.length = 20) (h2 : 2 ≤ o.nCount) (hn : o.nCount ≤ 20)
    (ha : o.values[0].toNat ≤ 2) (hb : o.values[1].toNat ≤ 39) :
    Appends (oidEncode o) () (oidCode (oidOctets (oidSubids ((o.values.take o.nCount).map BitVec.toNat)))) := by
  unfold oidEncode
  have hv : (o.values[0] * 40#64 + o.values[1]).toNat = 40 * o.values[0].toNat + o.values[1].toNat := by
    rw [BitVec.toNat_add, BitVec.toNat_mul]; simp; omega
  have e1 : subidEncode [] (o.values[0] * 40#64 + o.values[1]) =
      pure ((subidOctets (40 * o.values[0].toNat + o.values[1].toNat)).map (BitVec.ofNat 8)) := by
    have hl := subidOctets_length (n := 40 * o.values[0].toNat + o.values[1].toNat) (by omega)
    rw [subidEncode_eq _ _ (by rw [hv]; simp; omega), hv, List.nil_append]
  have hl := subidOctets_length (n := 40 * o.values[0].toNat + o.values[1].toNat) (by omega)
  rw [tblGet_pure (by omega), pure_bind, tblGet_pure (by omega), pure_bind, e1, pure_bind,
    subidsEncode_eq o _ 2 _ (by omega) (by simp; omega), pure_bind, ← List.map_append]
  have e2 : oidOctets (oidSubids ((o.values.take o.nCount).map BitVec.toNat)) =
      subidOctets (40 * o.values[0].toNat + o.values[1].toNat) ++
        oidOctets (((o.values.drop 2).take (o.nCount - 2)).map BitVec.toNat) := by
    obtain ⟨k, hk⟩ : ∃ k, o.nCount = k + 2 := ⟨o.nCount - 2, by omega⟩
    rw [hk]
    exact oidSubids_take (by omega) k
  rw [e2]
  refine oidEmit_appends ?_ ?_
  · intro x hx
    rcases List.mem_append.1 hx with h | h
    · exact subidOctets_lt _ x h
    · exact oidOctets_lt _ x h
  · have := oidOctets_length (toNats_lt ((o.values.drop 2).take (o.nCount - 2)))
    simp at this ⊢; omega

theorem relOidEncode_appends {o : Oid} (h20 : o.values.length = 20) (hn : o.nCount ≤ 20) :
    Appends (relOidEncode o) () (oidCode (oidOctets ((o.values.take o.nCount).map BitVec.toNat))) := by
  unfold relOidEncode
  rw [subidsEncode_eq o _ 0 _ (by omega) (by simp; omega), pure_bind, List.nil_append, List.drop_zero]
  refine oidEmit_appends (oidOctets_lt _) ?_
  have := oidOctets_length (toNats_lt (o.values.take o.nCount))
  simp at this ⊢; omega

/-! ### decoding -/

theorem readOctet_reads {n : Nat} (h : n < 256) :
    Reads readByte (true, BitVec.ofNat 8 n) (bitsMsb 8 n) ∧ Short readByte (bitsMsb 8 n) := by
  have e : bitsMsb 8 n = byteBits (BitVec.ofNat 8 n) := by
    rw [byteBits, BitVec.toNat_ofNat, Nat.mod_eq_of_lt (by omega)]
  rw [e]
  exact ⟨readByte_reads _, readByte_needs.short (by simp)⟩

theorem subid_shift {q d : Nat} (hd : d < 128) (h : q * 128 + d < 2 ^ 64) (c : Nat) (hc : c = 0 ∨ c = 128) :
    ((BitVec.ofNat 64 q) <<< 7) ||| ((BitVec.ofNat 8 (c + d)) &&& 0x7F#8).setWidth 64 = BitVec.ofNat 64 (q * 128 + d) := by
  have e : ∀ k : Fin 128, ((BitVec.ofNat 8 k.val) &&& 0x7F#8) = BitVec.ofNat 8 k.val ∧
      ((BitVec.ofNat 8 (128 + k.val)) &&& 0x7F#8) = BitVec.ofNat 8 k.val := by decide
  have e' : (BitVec.ofNat 8 (c + d)) &&& 0x7F#8 = BitVec.ofNat 8 d := by
    rcases hc with rfl | rfl
    · rw [Nat.zero_add]; exact (e ⟨d, hd⟩).1
    · exact (e ⟨d, hd⟩).2
  rw [e']
  apply BitVec.eq_of_toNat_eq
  have h1 : q % 2 ^ 64 = q := Nat.mod_eq_of_lt (by omega)
  rw [BitVec.toNat_or, BitVec.toNat_shiftLeft, BitVec.toNat_setWidth, BitVec.toNat_ofNat, BitVec.toNat_ofNat, BitVec.toNat_ofNat, h1,
    Nat.shiftLeft_eq, Nat.mod_eq_of_lt (a := q * 2 ^ 7) (by omega), Nat.mod_eq_of_lt (a := d % 2 ^ 8) (by omega),
    Nat.mod_eq_of_lt (a := d) (by omega), Nat.mod_eq_of_lt h, Nat.mul_comm q, ← Nat.two_pow_add_eq_or_of_lt (by omega)]

theorem bit80 {d : Nat} (h : d < 128) : BitVec.ofNat 8 d &&& 0x80#8 = 0#8 ∧ BitVec.ofNat 8 (128 + d) &&& 0x80#8 ≠ 0#8 := by
  have : ∀ k : Fin 128, BitVec.ofNat 8 k.val &&& 0x80#8 = 0#8 ∧ BitVec.ofNat 8 (128 + k.val) &&& 0x80#8 ≠ 0#8 := by decide
  exact this ⟨d, h⟩

theorem subidDecode_lead (n : Nat) : ∀ (rem : Nat) (r : Nat × U64) (w : List Bool), n < 2 ^ 64 →
    Reads (subidDecode rem (BitVec.ofNat 64 n)) (true, r) w ∧ Short (subidDecode rem (BitVec.ofNat 64 n)) w →
    Reads (subidDecode ((subidLead n).length + rem) 0#64) (true, r) ((subidLead n).flatMap (bitsMsb 8) ++ w) ∧
    Short (subidDecode ((subidLead n).length + rem) 0#64) ((subidLead n).flatMap (bitsMsb 8) ++ w) := by
  induction n using Nat.strongRecOn with
  | _ n ih =>
    intro rem r w hn h
    by_cases h0 : n = 0
    · subst h0; rw [subidLead, if_pos rfl]; simpa using h
    · rw [subidLead, if_neg h0, List.length_append, List.flatMap_append, List.append_assoc, Nat.add_assoc]
      refine ih (n / 128) (by omega) _ _ _ (by omega) ?_
      obtain ⟨ro, so⟩ := readOctet_reads (n := 128 + n % 128) (by omega)
      have e : [128 + n % 128].flatMap (bitsMsb 8) = bitsMsb 8 (128 + n % 128) := by simp
      have sh := subid_shift (q := n / 128) (d := n % 128) (by omega) (by omega) 128 (Or.inr rfl)
      rw [show n / 128 * 128 + n % 128 = n by omega] at sh
      rw [e, show [128 + n % 128].length + rem = rem + 1 by simp; omega]
      simp only [subidDecode]
      constructor
      · refine ro.bind ?_
        rw [if_pos rfl, if_neg (bit80 (by omega)).2, sh]
        exact h.1
      · refine so.bind ro ?_ (fun a => ⟨_, by rw [if_neg (by simp)]⟩)
        rw [if_pos rfl, if_neg (bit80 (by omega)).2, sh]
        exact h.2

theorem subidDecode_reads {n : Nat} (rem : Nat) (hn : n < 2 ^ 64) :
    Reads (subidDecode ((subidOctets n).length + rem) 0#64) (true, (rem, BitVec.ofNat 64 n)) ((subidOctets n).flatMap (bitsMsb 8)) ∧
    Short (subidDecode ((subidOctets n).length + rem) 0#64) ((subidOctets n).flatMap (bitsMsb 8)) := by
  rw [subidOctets, List.length_append, List.flatMap_append, Nat.add_assoc]
  refine subidDecode_lead _ _ _ _ (by omega) ?_
  obtain ⟨ro, so⟩ := readOctet_reads (n := n % 128) (by omega)
  have sh := subid_shift (q := n / 128) (d := n % 128) (by omega) (by omega) 0 (Or.inl rfl)
  rw [show n / 128 * 128 + n % 128 = n by omega, Nat.zero_add] at sh
  have e : [n % 128].flatMap (bitsMsb 8) = bitsMsb 8 (n % 128) ++ [] := by simp
  rw [e, show [n % 128].length + rem = rem + 1 by simp; omega]
  simp only [subidDecode]
  constructor
  · refine ro.bind ?_
    rw [if_pos rfl, if_pos (bit80 (by omega)).1, sh]
    exact Reads.pure _
  · refine so.bind ro ?_ (fun a => ⟨_, by rw [if_neg (by simp)]⟩)
    exact Short.nil _

/-- A component list as the decoder leaves it: unused places are 0. -/
def padOid (l : List U64) : Oid := ⟨l.length, l ++ List.replicate (20 - l.length) 0#64⟩

theorem oidPush_pad {l : List U64} (h : l.length < 20) (v : U64) : oidPush (padOid l) v = pure (padOid (l ++ [v])) := by
  unfold oidPush padOid
  rw [if_pos (by simp; omega)]
  congr 2
  · simp
  · rw [List.set_append, if_neg (by simp)]
    obtain ⟨k, hk⟩ : ∃ k, 20 - l.length = k + 1 := ⟨19 - l.length, by omega⟩
    simp only [Nat.sub_self, hk, List.replicate_succ, List.set_cons_zero, List.append_assoc, List.length_append,
      List.length_singleton, show 20 - (l.length + 1) = k by omega, List.singleton_append]

theorem subidOctets_pos (n : Nat) : 0 < (subidOctets n).length := by simp [subidOctets]

theorem oidDecodeLoop_reads (l : List U64) : ∀ (fuel : Nat) (pre : List U64), l.length < fuel → pre.length + l.length ≤ 20 →
    Reads (oidDecodeLoop fuel (oidOctets (l.map BitVec.toNat)).length (padOid pre)) (true, (0, padOid (pre ++ l)))
      ((oidOctets (l.map BitVec.toNat)).flatMap (bitsMsb 8)) ∧
    Short (oidDecodeLoop fuel (oidOctets (l.map BitVec.toNat)).length (padOid pre))
      ((oidOctets (l.map BitVec.toNat)).flatMap (bitsMsb 8)) := by
  induction l with
  | nil =>
    intro fuel pre hf hp
    obtain ⟨f, rfl⟩ : ∃ f, fuel = f + 1 := ⟨fuel - 1, by omega⟩
    simp only [oidDecodeLoop, oidOctets, List.map_nil, List.flatMap_nil, List.length_nil, List.append_nil]
    rw [if_neg (by omega)]
    exact ⟨Reads.pure _, Short.nil _⟩
  | cons a t ih =>
    intro fuel pre hf hp
    simp only [List.length_cons] at hf hp
    obtain ⟨f, rfl⟩ : ∃ f, fuel = f + 1 := ⟨fuel - 1, by omega⟩
    obtain ⟨r, s⟩ := subidDecode_reads (n := a.toNat) (oidOctets (t.map BitVec.toNat)).length a.isLt
    obtain ⟨r2, s2⟩ := ih f (pre ++ [a]) (by omega) (by simp; omega)
    have hpos := subidOctets_pos a.toNat
    simp only [List.map_cons, oidOctets_cons, List.length_append, List.flatMap_append, oidDecodeLoop]
    rw [if_pos ⟨by omega, by simp only [padOid, oidMaxLength]; omega⟩]
    have hpush : oidPush (padOid pre) a = pure (padOid (pre ++ [a])) := oidPush_pad (by omega) a
    have ea : BitVec.ofNat 64 a.toNat = a := by simp
    rw [ea] at r
    constructor
    · refine r.bind ?_
      rw [if_pos rfl]
      simp only [hpush, pure_bind]
      simpa using r2
    · refine s.bind r ?_ (fun a => ⟨_, by rw [if_neg (by simp)]⟩)
      rw [if_pos rfl]
      simp only [hpush, pure_bind]
      exact s2

theorem oidDecodeLength_reads {n : Nat} (h : n < 16384) :
    Reads oidDecodeLength (true, n) (if n < 128 then bitsMsb 8 n else true :: bitsMsb 15 n) ∧
    Short oidDecodeLength (if n < 128 then bitsMsb 8 n else true :: bitsMsb 15 n) := by
  unfold oidDecodeLength
  by_cases h1 : n < 128
  · rw [if_pos h1, ← List.append_nil (bitsMsb 8 n)]
    obtain ⟨r, s⟩ := lengthOctet_reads (n := n) (by omega)
    constructor
    · refine r.bind ?_
      rw [if_pos rfl, if_neg (by show ¬ ((n : Int) > 127); omega)]
      exact Reads.pure _
    · refine s.bind r (Short.nil _) (fun a => ⟨_, by rw [if_neg (by simp)]⟩)
  · rw [if_neg h1]
    have hq : 0x80 + n / 256 < 256 := by omega
    have e0 : true :: bitsMsb 15 n = bitsMsb 8 (0x80 + n / 256) ++ (bitsMsb 8 (n % 256) ++ []) := by
      have e : true :: bitsMsb 15 n = bitsMsb 16 (0x8000 + n) := by
        have e1 : (0x8000 + n).testBit 15 = true := by
          rw [show (0x8000 : Nat) = 2 ^ 15 from rfl, Nat.testBit_two_pow_add_eq, Nat.testBit_lt_two_pow (by omega)]; rfl
        have e2 : bitsMsb 15 (0x8000 + n) = bitsMsb 15 n := by
          rw [← bitsMsb_mod 15 (0x8000 + n), ← bitsMsb_mod 15 n]
          congr 1
          omega
        have := bitsMsb_succ 15 (0x8000 + n)
        rw [e1, e2] at this
        exact this.symm
      rw [e, show (16 : Nat) = 8 + 8 from rfl, bitsMsb_append, Nat.shiftRight_eq_div_pow, List.append_nil]
      congr 1
      · congr 1; omega
      · rw [← bitsMsb_mod 8 (0x8000 + n), ← bitsMsb_mod 8 (n % 256)]; congr 1; omega
    rw [e0]
    obtain ⟨r1, s1⟩ := lengthOctet_reads (n := 0x80 + n / 256) (by omega)
    obtain ⟨r2, s2⟩ := lengthOctet_reads (n := n % 256) (by omega)
    have ev : (((((0x80 + n / 256 : Nat) : Int)).toNat <<< 8) ||| ((n % 256 : Nat) : Int).toNat) &&& 0x7FFF = n := by
      rw [Int.toNat_natCast, Int.toNat_natCast, Nat.shiftLeft_eq, Nat.mul_comm, ← Nat.two_pow_add_eq_or_of_lt (by omega),
        show (0x7FFF : Nat) = 2 ^ 15 - 1 from rfl, Nat.and_two_pow_sub_one_eq_mod]
      omega
    have hgt : (((0x80 + n / 256 : Nat) : Int)) > 0x7F := by omega
    constructor
    · refine r1.bind ?_
      rw [if_pos rfl, if_pos hgt]
      refine r2.bind ?_
      rw [if_pos rfl]
      simp only [ev]
      exact Reads.pure _
    · refine s1.bind r1 ?_ (fun a => ⟨_, by rw [if_neg (by simp)]⟩)
      rw [if_pos rfl, if_pos hgt]
      refine s2.bind r2 (Short.nil _) (fun a => ⟨_, by rw [if_neg (by simp)]⟩)

theorem oidDecode_reads {a b : U64} {l : List U64} (ha : a.toNat ≤ 2) (hb : b.toNat ≤ 39) (hl : l.length ≤ 18) :
    Reads oidDecode (true, padOid (a :: b :: l)) (oidCode (oidOctets (oidSubids ((a :: b :: l).map BitVec.toNat)))) ∧
    Short oidDecode (oidCode (oidOctets (oidSubids ((a :: b :: l).map BitVec.toNat)))) := by
  have hlen : (oidOctets (oidSubids ((a :: b :: l).map BitVec.toNat))).length ≤ 10 * 19 := by
    have := subidOctets_length (n := 40 * a.toNat + b.toNat) (by omega)
    have := oidOctets_length (toNats_lt l)
    simp [oidSubids, oidOctets_cons] at *
    omega
  obtain ⟨r1, s1⟩ := oidDecodeLength_reads (n := (oidOctets (oidSubids ((a :: b :: l).map BitVec.toNat))).length) (by omega)
  obtain ⟨r2, s2⟩ := subidDecode_reads (n := 40 * a.toNat + b.toNat) (oidOctets (l.map BitVec.toNat)).length (by omega)
  obtain ⟨r3, s3⟩ := oidDecodeLoop_reads l (oidMaxLength + 1) [a, b] (by simp [oidMaxLength]; omega) (by simp; omega)
  have eo : (⟨2, (oidInit.values.set 0 (BitVec.ofNat 64 (40 * a.toNat + b.toNat) / 40#64)).set 1
      (BitVec.ofNat 64 (40 * a.toNat + b.toNat) % 40#64)⟩ : Oid) = padOid [a, b] := by
    have h1 : BitVec.ofNat 64 (40 * a.toNat + b.toNat) / 40#64 = a := by
      apply BitVec.eq_of_toNat_eq
      rw [BitVec.toNat_udiv, BitVec.toNat_ofNat, Nat.mod_eq_of_lt (by omega), show (40#64).toNat = 40 from rfl]; omega
    have h2 : BitVec.ofNat 64 (40 * a.toNat + b.toNat) % 40#64 = b := by
      apply BitVec.eq_of_toNat_eq
      rw [BitVec.toNat_umod, BitVec.toNat_ofNat, Nat.mod_eq_of_lt (show 40 * a.toNat + b.toNat < 2 ^ 64 by omega), show (40#64).toNat = 40 from rfl]; omega
    rw [h1, h2]; rfl
  have ecode : oidCode (oidOctets (oidSubids ((a :: b :: l).map BitVec.toNat))) =
      (if (oidOctets (oidSubids ((a :: b :: l).map BitVec.toNat))).length < 128 then
        bitsMsb 8 (oidOctets (oidSubids ((a :: b :: l).map BitVec.toNat))).length
       else true :: bitsMsb 15 (oidOctets (oidSubids ((a :: b :: l).map BitVec.toNat))).length) ++
      ((subidOctets (40 * a.toNat + b.toNat)).flatMap (bitsMsb 8) ++
        ((oidOctets (l.map BitVec.toNat)).flatMap (bitsMsb 8) ++ [])) := by
    rw [oidCode]
    congr 1
    simp [oidSubids, oidOctets_cons]
  have elen : (oidOctets (oidSubids ((a :: b :: l).map BitVec.toNat))).length =
      (subidOctets (40 * a.toNat + b.toNat)).length + (oidOctets (l.map BitVec.toNat)).length := by
    simp [oidSubids, oidOctets_cons]
  rw [ecode]
  unfold oidDecode
  constructor
  · refine r1.bind ?_
    rw [if_pos rfl, elen]
    refine r2.bind ?_
    rw [if_pos rfl]
    simp only [eo]
    refine r3.bind ?_
    rw [if_pos rfl]
    exact Reads.pure _
  · refine s1.bind r1 ?_ (fun a => ⟨_, by rw [if_neg (by simp)]⟩)
    rw [if_pos rfl, elen]
    refine s2.bind r2 ?_ (fun a => ⟨_, by rw [if_neg (by simp)]⟩)
    rw [if_pos rfl]
    simp only [eo]
    refine s3.bind r3 (Short.nil _) (fun a => ⟨_, by rw [if_neg (by simp)]⟩)

theorem relOidDecode_reads {l : List U64} (hl : l.length ≤ 20) :
    Reads relOidDecode (true, padOid l) (oidCode (oidOctets (l.map BitVec.toNat))) ∧
    Short relOidDecode (oidCode (oidOctets (l.map BitVec.toNat))) := by
  have hlen := oidOctets_length (toNats_lt l)
  rw [List.length_map] at hlen
  obtain ⟨r1, s1⟩ := oidDecodeLength_reads (n := (oidOctets (l.map BitVec.toNat)).length) (by omega)
  obtain ⟨r3, s3⟩ := oidDecodeLoop_reads l (oidMaxLength + 1) [] (by simp [oidMaxLength]; omega) (by simp; omega)
  have e : oidInit = padOid [] := rfl
  rw [oidCode, ← List.append_nil (List.flatMap _ _)]
  unfold relOidDecode
  rw [e]
  constructor
  · refine r1.bind ?_
    rw [if_pos rfl]
    refine r3.bind ?_
    rw [if_pos rfl]
    exact Reads.pure _
  · refine s1.bind r1 ?_ (fun a => ⟨_, by rw [if_neg (by simp)]⟩)
    rw [if_pos rfl]
    refine s3.bind r3 (Short.nil _) (fun a => ⟨_, by rw [if_neg (by simp)]⟩)

/-! ### arbitrary input -/

theorem subidDecode_safe (rem : Nat) : ∀ v, Safe (subidDecode rem v) := by
  induction rem with
  | zero => intro v; exact Safe.pure _ _
  | succ rem ih =>
    intro v
    simp only [subidDecode]
    refine readByte_safe.bind (fun a => ?_) (fun a => ⟨_, by rw [if_neg (by simp)]⟩)
    rw [if_pos rfl]
    exact Safe.ite (fun _ => Safe.pure _ _) (fun _ => ih _)

/-- What a caller may assume about the structure after a decode, successful or not. -/
def OidOk (o : Oid) : Prop := o.nCount ≤ 20 ∧ o.values.length = 20

theorem oidPush_ok {o : Oid} (h : o.nCount < 20) (h2 : o.values.length = 20) (v : U64) :
    oidPush o v = pure ⟨o.nCount + 1, o.values.set o.nCount v⟩ := by
  unfold oidPush; rw [if_pos (by omega)]

theorem oidDecodeLoop_safe (fuel : Nat) : ∀ (rem : Nat) (o : Oid), 20 - o.nCount < fuel → OidOk o →
    Safe (oidDecodeLoop fuel rem o) ∧ Post (oidDecodeLoop fuel rem o) (fun r => OidOk r.2 ∧ o.nCount ≤ r.2.nCount) := by
  induction fuel with
  | zero => intro rem o h; omega
  | succ fuel ih =>
    intro rem o hf ho
    simp only [oidDecodeLoop]
    by_cases h : rem > 0 ∧ o.nCount < oidMaxLength
    · rw [if_pos h]
      have hlt : o.nCount < 20 := h.2
      have key : ∀ v rem', Safe (do let o ← oidPush o v; oidDecodeLoop fuel rem' o) ∧
          Post (do let o ← oidPush o v; oidDecodeLoop fuel rem' o) (fun r => OidOk r.2 ∧ o.nCount ≤ r.2.nCount) := by
        intro v rem'
        rw [oidPush_ok hlt ho.2, pure_bind]
        have := ih rem' ⟨o.nCount + 1, o.values.set o.nCount v⟩ (by show 20 - (o.nCount + 1) < fuel; omega) ⟨by show o.nCount + 1 ≤ 20; omega, by simp [ho.2]⟩
        exact ⟨this.1, this.2.mono (fun a ha => ⟨ha.1, by have := ha.2; simp only [] at this; omega⟩)⟩
      constructor
      · refine (subidDecode_safe rem 0#64).bind (fun a => ?_) (fun a => ⟨_, by rw [if_neg (by simp)]⟩)
        rw [if_pos rfl]
        exact (key _ _).1
      · refine Post.bind (fun p => ?_)
        by_cases hp : p.1 = true
        · rw [if_pos hp]; exact (key _ _).2
        · rw [if_neg hp]; exact Post.false
    · rw [if_neg h]
      exact ⟨Safe.pure _ _, Post.pure (fun _ => ⟨ho, Nat.le_refl _⟩)⟩

theorem oidDecodeLength_safe : Safe oidDecodeLength := by
  unfold oidDecodeLength
  have hs : Safe (decodeConstraintWholeNumber 0 0xFF) := decodeConstraintWholeNumber_safe (by omega) (by omega) (by omega) (by omega)
  refine hs.bind (fun a => ?_) (fun a => ⟨_, by rw [if_neg (by simp)]⟩)
  rw [if_pos rfl]
  refine Safe.ite (fun _ => ?_) (fun _ => Safe.pure _ _)
  refine hs.bind (fun a => ?_) (fun a => ⟨_, by rw [if_neg (by simp)]⟩)
  rw [if_pos rfl]
  exact Safe.pure _ _

end Asn1
