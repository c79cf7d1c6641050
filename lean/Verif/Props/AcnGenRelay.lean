import Verif.Proof.AcnGenRelay2
import Verif.Proof.AcnGenTop
import Verif.Props.AcnGenSafe
/-!
# Properties: what generated ACN decoders accept

C75 (accepted values satisfy the constraints of the type) and C78 (they can be sent on). The specification is in `Verif/Spec/AcnGenRelay.lean`.
-/
namespace Asn1

/-! ## C75: accepted values satisfy the constraints -/

/-- C75: whatever the input and the state of the stream, if the generated ACN decoder returns TRUE then the value satisfies the constraints of the ASN.1 type. Missing: the
conditions on components without ACN properties, which are those of C48 (`APrims`). -/
theorem C75_accepted_valid_partial (t : ATy) (hp : APrims t) (s s' : BitStream) (v : Val) (h : decodeAcn t s = .ok ((true, v), s')) : Satisfies t v :=
  decodeAcn_satisfies hp s v s' h

/-- The example of C73 and a message that is accepted; one with a value of `bits` that is too short for its constraint is not accepted. -/
example : APrims exGTy ∧
    (∃ s', decodeAcn exGTy ⟨[2#8, 1#8, 0xAB#8, 0xCD#8, 0x5A#8, 0#8, 0#8], 7, 0, 0⟩ =
      .ok ((true, .seq [(true, .octets [0xAB#8, 0xCD#8]), (true, .seq [(true, .bits 2 [0x80#8]), (false, .null)])]), s')) ∧
    ∃ v s', decodeAcn exGTy ⟨[0#8, 1#8, 0x5A#8, 0#8, 0#8], 5, 0, 0⟩ = .ok ((false, v), s') := by
  refine ⟨by simp [exGTy, APrims, APrimsFields], ⟨⟨[2#8, 1#8, 0xAB#8, 0xCD#8, 0x5A#8, 0#8, 0#8], 7, 4, 6⟩, ?_⟩,
    .seq [(true, .octets [])], ⟨[0#8, 1#8, 0x5A#8, 0#8, 0#8], 5, 2, 4⟩, ?_⟩ <;>
  · simp only [decodeAcn, exGTy, decA, decAFields, decPresA]
    rfl

/-! ## C78: accepted values can be sent on -/

/-- C78: for every input, if the generated ACN decoder returns TRUE then the generated ACN encoder encodes the value it has returned, with the check of constraints and
without it, and what it writes decodes to the same value. Missing: what `AcnRelays` and `AcnGuarded` exclude; the theorems `C78_violation_…` and `C73_violation_…` show that this is
needed. -/
theorem C78_relay_partial (t : ATy) (hok : AcnOk t) (hg : AcnGuarded t) (hr : AcnRelays t) (s s' : BitStream) (v : Val) (hw : Wf s) (hp : s.pos ≤ 8 * s.count) (hs : Slack s)
    (h : decodeAcn t s = .ok ((true, v), s')) (bCheckConstraints : Bool) :
    RoundTripAt (encodeAcn t v bCheckConstraints) true (decodeAcn t) v (fun p => (acnCode t v p).length) := by
  obtain ⟨r, s2, h1, _, _, h4⟩ := decodeAcn_relay hok hg hr s hw hp hs
  rw [h] at h1
  simp only [Res.ok.injEq, Prod.mk.injEq] at h1
  obtain ⟨rfl, rfl⟩ := h1
  exact C71_roundtrip_partial t v bCheckConstraints hok (h4 rfl).1

/-- Three determinants of one octet; the first is the length of an OCTET STRING and, as a parameter, of a BIT STRING; the second counts the elements of a list; the third is
the length of a name. -/
def exRTy : ATy :=
  .seq (.acn 0 none (.int 8 (.concrete 0 255) .const8 none)
    (.acn 1 (some .byte) (.int 8 (.concrete 0 9) .const8 none)
    (.acn 2 none (.int 8 (.concrete 0 20) .const8 none)
    (.asn1 .mandatory (.octets 0 20 0 (some 255))
    (.asn1 .mandatory (.ref [(0, 3)] (.seq
      (.acn 7 none (.bool (.twoPatterns [0xA0#8] [0x50#8] 4))
      (.asn1 .mandatory (.bits 1 255 3 (some 255))
      (.asn1 (.optional (.whenBool 7) none) (.leaf (.int 16 (.concrete (-1000) 1000) (.little 2) none)) .nil)))))
    (.asn1 .mandatory (.seqOf 0 9 (some 1) (.prim .bool))
    (.asn1 .mandatory (.strExt [0x41#8, 0x42#8] 0 20 2) .nil)))))))

theorem exRTy_ok : AcnOk exRTy := by
  refine ⟨?_, ?_⟩
  · simp only [exRTy, AOk, AOkFields, dependents, dependentsFields, AOpt.uses, Ok, Ty.simple]
    decide
  · simp [exRTy, Scoped, ScopedFields, AOpt.uses, AOpt.always, provides]

theorem exRTy_may {k : Nat} {x : Int} (hk : k = 0 ∨ k = 1 ∨ k = 2) (h : mayBe (fun _ _ => False) exRTy k x) : 0 ≤ x ∧ x < 2 ^ 8 := by
  rcases h with h | ⟨l, hl, hx⟩
  · exact h.elim
  · simp [exRTy, dets, detsFields] at hl
    rcases hl with ⟨rfl, rfl⟩ | ⟨rfl, rfl⟩ | ⟨rfl, rfl⟩ <;>
    · simp [DetMay, IntMay, Rng.unsigned, IntEnc.under] at hx
      omega

theorem exRTy_guarded : AcnGuarded exRTy := by
  simp only [AcnGuarded, exRTy, AGuarded, AGuardedFields, LeafGuarded, IntGuarded, Guarded]
  refine ⟨trivial, by simp, trivial, by simp, trivial, by simp, .inr (fun x hx => ?_), ⟨by simp, by simp, .inr (fun x hx => ?_), ?_, trivial⟩,
    ⟨fun j hj => .inr (fun x hx => ?_), trivial⟩, trivial, trivial⟩
  · have := exRTy_may (.inl rfl) hx
    exact ⟨this.1, .inr (fun m hm => by cases hm; decide)⟩
  · rcases hx with ⟨k, hk, hx⟩ | ⟨l, hl, hx⟩
    · simp at hk
      subst hk
      have := exRTy_may (.inl rfl) hx
      omega
    · simp [dets, detsFields] at hl
  · simp
  · cases hj
    exact (exRTy_may (.inr (.inl rfl)) hx).1

theorem exRTy_relays : AcnRelays exRTy := by
  refine ⟨by simp [exRTy, dets, detsFields], ⟨?_, ?_, ?_⟩, ?_⟩
  · intro k l x hl hx
    simp [exRTy, dets, detsFields] at hl
    rcases hl with ⟨rfl, rfl⟩ | ⟨rfl, rfl⟩ | ⟨rfl, rfl⟩ <;>
    · simp [DetMay, IntMay, Rng.unsigned, IntEnc.under] at hx
      simp [LeafFits, AIntFits, mapped, FitsC, Rng.unsigned, IntEnc.holds]
      omega
  · intro k hk
    simp [exRTy, strKeys, strKeysFields] at hk
    subst hk
    refine ⟨by simp [exRTy, dependents, dependentsFields, AOpt.uses], ?_⟩
    intro l x y hl hx h0 hxy
    simp [exRTy, dets, detsFields] at hl
    subst hl
    simp [DetMay, IntMay, Rng.unsigned, IntEnc.under] at hx
    simp [LeafFits, AIntFits, mapped, FitsC, Rng.unsigned, IntEnc.holds]
    omega
  · simp [exRTy, Asked, AskedFields, demands, demandsFields, AOpt.uses, AOpt.always]
  · simp only [exRTy, ARelays, ARelaysFields]
    refine ⟨by simp [AOpt.uses], by simp, by simp [AOpt.uses], ⟨by simp [dets, detsFields], by simp [dets, detsFields], ⟨?_, ?_, ?_⟩, ?_⟩, by simp [AOpt.uses],
      ⟨by simp, ⟨by simp [dets], by simp [strKeys], by simp [Asked]⟩, by simp [NoMin]⟩, by simp [AOpt.uses], trivial, trivial⟩
    · intro k l x hl hx
      simp [dets, detsFields] at hl
      obtain ⟨rfl, rfl⟩ := hl
      exact ⟨hx, by simp only [BoolEnc.ok]; decide⟩
    · simp [strKeys, strKeysFields]
    · simp [Asked, AskedFields, demands, demandsFields, AOpt.uses, AOpt.always]
    · refine ⟨by simp [AOpt.uses], by simp, ?_, ?_, trivial⟩
      · intro k hk x hx
        simp [AOpt.uses] at hk
        subst hk
        rcases hx with ⟨k, hk, hx⟩ | ⟨l, hl, hx⟩
        · simp at hk
        · simp [dets, detsFields] at hl
          subst hl
          exact hx
      · intro x hx hr
        simp [Rng.contains] at hr
        simp [LeafFits, AIntFits, mapped, FitsC, Rng.unsigned, IntEnc.holds, FitsTwos]
        omega

/-- The example meets the hypotheses. The message of the second line says that the name has 200 characters, of which 20 are read, the third of which is zero; it is accepted with
the name `AB`, and sent on with the length 2. -/
example : AcnOk exRTy ∧ AcnGuarded exRTy ∧ AcnRelays exRTy ∧
    let buf : List Byte := [1#8, 1#8, 200#8, 0xAB#8, 0x5D#8, 0x05#8, 0x08#8] ++ List.replicate 25 0#8
    let v : Val := .seq [(true, .octets [0xAB#8]), (true, .seq [(true, .bits 1 [0x80#8]), (false, .null)]), (true, .seqOf [.bool true]), (true, .str [0x41#8, 0x42#8])]
    (∃ s', decodeAcn exRTy ⟨buf, 32, 0, 0⟩ = .ok ((true, v), s')) ∧ acnCode exRTy v 0 =
      bytesBits [1#8, 1#8, 2#8, 0xAB#8, 0x5D#8, 0x05#8] ++ (bytesBits [0x08#8]).take 6 := by
  refine ⟨exRTy_ok, exRTy_guarded, exRTy_relays, ⟨⟨[1#8, 1#8, 200#8, 0xAB#8, 0x5D#8, 0x05#8, 0x08#8] ++ List.replicate 25 0#8, 32, 24, 6⟩, ?_⟩, ?_⟩
  · simp only [decodeAcn, exRTy, decA, decAFields, decPresA]
    rfl
  · have e : required exRTy (.seq [(true, .octets [0xAB#8]), (true, .seq [(true, .bits 1 [0x80#8]), (false, .null)]), (true, .seqOf [.bool true]), (true, .str [0x41#8, 0x42#8])]) =
        [(0, 1), (0, 1), (1, 1), (2, 2)] := by
      simp [exRTy, required, requiredFields, reqPresence]
    unfold acnCode
    rw [e]
    simp only [exRTy, acode, acodeFields, presACode]
    decide +kernel

/-- The code violates C78: the length of an OPTIONAL OCTET STRING; the message `02 80` says that the string is absent and its length 5. It is accepted, but its value cannot be encoded: no
component gives the length a value. -/
theorem C78_violation_absent :
    let t : ATy := .seq (.acn 0 none (.int 8 (.concrete 0 255) .const8 none) (.asn1 (.optional .bit none) (.octets 0 20 0 (some 255)) .nil))
    let v : Val := .seq [(false, .null)]
    AcnOk t ∧ AcnGuarded t ∧ (∃ s', decodeAcn t ⟨[0x02#8, 0x80#8, 0#8], 3, 0, 0⟩ = .ok ((true, v), s')) ∧
      ∃ s', encodeAcn t v true ⟨[0#8, 0#8, 0#8], 3, 0, 0⟩ = .ok (false, s') := by
  refine ⟨⟨by simp [AOk, AOkFields], by simp [Scoped, ScopedFields, AOpt.uses]⟩, ?_, ⟨⟨[0x02#8, 0x80#8, 0#8], 3, 1, 1⟩, ?_⟩, ⟨[0#8, 0#8, 0#8], 3, 0, 1⟩, ?_⟩
  · simp only [AcnGuarded, AGuarded, AGuardedFields, LeafGuarded, IntGuarded, mayBe, dets, detsFields]
    refine ⟨trivial, by simp, .inr ?_, trivial⟩
    rintro x (h | ⟨l, hl, hx⟩)
    · exact h.elim
    · simp at hl
      subst hl
      simp [DetMay, IntMay, Rng.unsigned, IntEnc.under] at hx
      exact ⟨hx.1, .inr (fun m hm => by cases hm; decide)⟩
  · simp only [decodeAcn, decA, decAFields, decPresA]
    rfl
  · simp only [encodeAcn, encA, encAFields, encPresA, upd, updFields, validA, validAFields]
    decide +kernel

/-- The code violates C78: one determinant is the length of a name of at most one character and of an OCTET STRING. The decoder of the name takes the length 2 of the message
`02 41 AA BB` for 1 and accepts; the value has a name of length 1 and two octets, and cannot be encoded. -/
theorem C78_violation_clipped :
    let t : ATy := .seq (.acn 0 none (.int 8 (.concrete 0 255) .const8 none)
      (.asn1 .mandatory (.strExt [0x41#8] 0 1 0) (.asn1 .mandatory (.octets 0 20 0 (some 255)) .nil)))
    let v : Val := .seq [(true, .str [0x41#8]), (true, .octets [0xAA#8, 0xBB#8])]
    AcnOk t ∧ AcnGuarded t ∧ Satisfies t v ∧ (∃ s', decodeAcn t ⟨[0x02#8, 0x41#8, 0xAA#8, 0xBB#8, 0#8], 5, 0, 0⟩ = .ok ((true, v), s')) ∧
      ∃ s', encodeAcn t v true ⟨[0#8, 0#8, 0#8, 0#8, 0#8], 5, 0, 0⟩ = .ok (false, s') := by
  refine ⟨⟨by simp [AOk, AOkFields], by simp [Scoped, ScopedFields, AOpt.uses, AOpt.always, provides]⟩, ?_, by simp [Satisfies, SatisfiesFields, StrValid],
    ⟨⟨[0x02#8, 0x41#8, 0xAA#8, 0xBB#8, 0#8], 5, 4, 0⟩, ?_⟩, ⟨[0#8, 0#8, 0#8, 0#8, 0#8], 5, 0, 0⟩, ?_⟩
  · simp only [AcnGuarded, AGuarded, AGuardedFields, LeafGuarded, IntGuarded, mayBe, dets, detsFields]
    refine ⟨trivial, by simp, trivial, .inr ?_, trivial⟩
    rintro x (h | ⟨l, hl, hx⟩)
    · exact h.elim
    · simp at hl
      subst hl
      simp [DetMay, IntMay, Rng.unsigned, IntEnc.under] at hx
      exact ⟨hx.1, .inr (fun m hm => by cases hm; decide)⟩
  · simp only [decodeAcn, decA, decAFields, decPresA]
    rfl
  · simp only [encodeAcn, encA, encAFields, encPresA, upd, updFields, validA, validAFields]
    decide +kernel

end Asn1
