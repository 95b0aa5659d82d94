import Verif.Spec.Reveal
import Verif.Props.Chosen
import Verif.Proofs.History
import Verif.Props.History

/-!
# What headers and keys show to everyone

Property C95: the attributes of a ciphertext, and the attributes granted by a user key, can be read off their bytes.
-/

namespace Abe

set_option linter.unusedSectionVars false

theorem wordAt_append (x r : Bytes) (n : UInt32) : wordAt (x ++ (be32 n ++ r)) x.length = n.toNat := by
  unfold wordAt
  rw [List.drop_left, List.take_append_of_le_length (by rw [be32_length]), List.take_of_length_le (by rw [be32_length]), bigEndian_be32]

theorem wordAt_at {x r : Bytes} {n : UInt32} {b : Bytes} {o : Nat} (hb : b = x ++ (be32 n ++ r)) (ho : o = x.length) : wordAt b o = n.toNat := by
  subst hb ho; exact wordAt_append x r n

theorem wordAt_labels (x r : Bytes) (l : List UInt32) :
    (List.range l.length).map (fun i => wordAt (x ++ ((l.map be32).flatten ++ r)) (x.length + 4 * i)) = l.map UInt32.toNat := by
  induction l generalizing x with
  | nil => rfl
  | cons v l ih =>
    rw [List.length_cons, List.range_succ_eq_map, List.map_cons, List.map_cons, List.map_map]
    congr 1
    · refine wordAt_at (x := x) (r := (l.map be32).flatten ++ r) ?_ (by omega)
      simp
    · rw [← ih (x ++ be32 v)]
      refine List.map_congr_left fun i _ => ?_
      simp only [Function.comp]
      congr 1
      · simp
      · simp [be32_length]; omega

section
variable {K G1 G2 G3 Gt Key Nonce : Type} [Field K] [DecidableEq K]
variable {e : External Key Nonce} {bm : BilinearMap K G1 G2 G3 Gt} {cs : Codecs K G2 G3 Gt} {t : Target} {p p' : Policy} {pub : MasterPublicKey G2 Gt}
  {atts : List Attribute} {md : Option Metadata} {random : Gt} {s : K} {nonce : Nonce} {h : EncryptedHeader Key}

theorem vecEnc_bytes {α : Type} {c : Codec α} {n : Nat} (hc : c.Fixed n) {l : List α} {b : Bytes} (h : vecEnc c l = .ok b) (h0 : l ≠ []) :
    ∃ r, b = be32 l.length.toUInt32 ++ r ∧ r.length = n * l.length ∧ l.length < 2 ^ 32 ∧ ∃ parts, mapRes c.enc l = .ok parts ∧ r = parts.flatten := by
  unfold vecEnc at h
  rw [if_neg (by simpa using h0)] at h
  obtain ⟨len, h1, h⟩ := Res.bind_eq_ok.1 h
  obtain ⟨parts, h2, h⟩ := Res.bind_eq_ok.1 h
  simp only [Res.ok.injEq] at h
  unfold u32TryFrom at h1
  split at h1
  · rename_i hl
    simp only [Res.ok.injEq] at h1
    exact ⟨_, by rw [h1, h], by rw [encMap_length hc h2, Nat.mul_comm], hl, parts, h2, rfl⟩
  · simp at h1

/-- The labels of an encrypted header are read back. -/
theorem readValues_header (hcs : cs.Lawful) (henc : encryptHybridHeader e bm cs t p pub atts md random s nonce = .ok h) :
    ∃ vs, p.attributesValues atts = .ok vs ∧ readValues h.encryptedHeaderBytes = vs.map UInt32.toNat := by
  obtain ⟨kb, ek, hg, _, hl, hcase⟩ := encryptHybridHeader_inv henc
  obtain ⟨ct, gb, h1, h2, _, _⟩ := generateSymmetricKey_inv hg
  dsimp only at h2
  obtain ⟨tail, hb⟩ : ∃ tail, h.encryptedHeaderBytes = be32 ek.length.toUInt32 ++ (ek ++ tail) := by
    rcases hcase with ⟨_, hb⟩ | ⟨m, mb, em, _, _, _, _, hb⟩
    · exact ⟨[], by rw [hb]; simp⟩
    · exact ⟨_, by rw [hb, List.append_assoc]⟩
  unfold engineEncrypt at h1
  obtain ⟨vs, hv, h1⟩ := Res.bind_eq_ok.1 h1
  refine ⟨vs, hv, ?_⟩
  unfold encrypt at h1
  split at h1
  · obtain ⟨_, _, h1⟩ := Res.bind_eq_ok.1 h1
    simp at h1
  obtain ⟨eI, h3, h1⟩ := Res.bind_eq_ok.1 h1
  simp only [Res.ok.injEq] at h1
  subst h1
  have hlen : eI.length = vs.length := (mapRes_length h3)
  obtain ⟨gamma, g1, h2⟩ := Res.bind_eq_ok.1 h2
  obtain ⟨ep, g2, h2⟩ := Res.bind_eq_ok.1 h2
  obtain ⟨ei, g3, h2⟩ := Res.bind_eq_ok.1 h2
  simp only [Res.ok.injEq] at h2
  dsimp only at g1 g2 g3
  have hep : ep.length = 288 := by
    obtain ⟨b, e1, e2⟩ := hcs.gt.enc (bm.gtMul random (bm.gtExp pub.y s))
    rw [g2] at e1
    simp only [Res.ok.injEq] at e1
    rw [e1, e2]
  have hw0 : wordAt h.encryptedHeaderBytes 0 = ek.length := by
    rw [wordAt_at (o := 0) (x := []) (r := ek ++ tail) (n := ek.length.toUInt32) hb rfl, toNat_toUInt32 hl]
  unfold readValues
  rw [hw0]
  by_cases h0 : vs = []
  · subst h0
    obtain rfl : eI = [] := List.length_eq_zero_iff.1 hlen
    obtain rfl : [] = gamma := by simpa [vecEnc] using g1
    obtain rfl : [] = ei := by simpa [vecEnc] using g3
    rw [if_pos (by rw [← h2]; simpa using hep)]
    rfl
  · obtain ⟨r, e1, e2, e3, parts, e4, e5⟩ := vecEnc_bytes u32Codec_fixed g1 h0
    have hne : eI ≠ [] := by rintro rfl; exact h0 (List.length_eq_zero_iff.1 hlen.symm)
    rw [if_neg (by
      rw [← h2, e1]
      simp only [List.length_append, be32_length]
      omega)]
    rw [flattenLabels] at e4
    simp only [Res.ok.injEq] at e4
    subst e4
    rw [e5] at e1
    have hfull : h.encryptedHeaderBytes = be32 ek.length.toUInt32 ++ (be32 vs.length.toUInt32 ++ ((vs.map be32).flatten ++ (ei ++ ep ++ tail))) := by
      rw [hb, ← h2, e1]; simp
    rw [wordAt_at (o := 4) (x := be32 ek.length.toUInt32) hfull rfl, toNat_toUInt32 e3]
    have := wordAt_labels (be32 ek.length.toUInt32 ++ be32 vs.length.toUInt32) (ei ++ ep ++ tail) vs
    rw [← this]
    refine List.map_congr_left fun i _ => ?_
    congr 1

/-- **C95**, values: whatever key encrypts, an eavesdropper reads the current values of the attributes, in order, off the bytes of the header. -/
theorem C95_values (hcs : cs.Lawful) (henc : encryptHybridHeader e bm cs t p pub atts md random s nonce = .ok h) :
    List.Forall₂ (fun a n => ∃ v, p.Top a v ∧ v.toNat = n) atts (readValues h.encryptedHeaderBytes) := by
  obtain ⟨vs, hv, hr⟩ := readValues_header hcs henc
  rw [hr]
  unfold Policy.attributesValues at hv
  have := mapRes_eq_ok.1 hv
  rw [List.forall₂_map_right_iff]
  refine this.imp fun a v hav => ⟨v, top_iff.2 ?_, rfl⟩
  cases hc : p.currentValue a with
  | none => rw [hc] at hav; simp [Res.ofOption] at hav
  | some w => rw [hc] at hav; simpa [Res.ofOption] using hav

theorem named_eq (hw : p.WF) {a : Attribute} {v : UInt32} (h : p.HasValue a v) : p.named v.toNat = some a := by
  obtain ⟨heap, hh, hv⟩ := h
  have hmem := hget_mem hh
  unfold Policy.named
  cases hf : p.attributeToInt.find? (fun q => q.2.any fun w => w.toNat == v.toNat) with
  | none =>
    rw [List.find?_eq_none] at hf
    have := hf _ hmem
    simp only [List.any_eq_true, beq_iff_eq, not_exists, not_and] at this
    exact absurd rfl (this v hv)
  | some q =>
    have h1 := List.find?_some hf
    have h2 := List.mem_of_find?_eq_some hf
    simp only [List.any_eq_true, beq_iff_eq] at h1
    obtain ⟨w, hw', e⟩ := h1
    obtain rfl : w = v := UInt32.toNat_inj.1 e
    have : hget p.attributeToInt q.1 = some q.2 := (hget_eq_some hw.keysNodup).2 h2
    rw [Option.map_some]
    exact congrArg some (Policy.HasValue.inj hw ⟨q.2, this, hw'⟩ ⟨heap, hh, hv⟩)

/-- **C95.** Whatever key encrypts, an eavesdropper with the policy, also with one obtained from it by later rotations and new axes, reads off the bytes of
the header for which attributes it was made, in order. -/
theorem C95_attributes (hcs : cs.Lawful) (hp : p.Reachable) {l : List Change} (hl : p.Evolves l p')
    (henc : encryptHybridHeader e bm cs t p pub atts md random s nonce = .ok h) :
    p'.names (readValues h.encryptedHeaderBytes) = atts := by
  have hlater := evolves_later hl (reachable_wf hp)
  have h1 := C95_values hcs henc
  revert h1
  generalize readValues h.encryptedHeaderBytes = ns
  clear henc
  intro h1
  induction h1 with
  | nil => rfl
  | @cons a n _ _ hav _ ih =>
    obtain ⟨v, hc, rfl⟩ := hav
    unfold Policy.names at ih ⊢
    rw [List.filterMap_cons, named_eq hlater.wf (hlater.mono _ _ (Policy.currentValue_hasValue (top_iff.1 hc)))]
    exact congrArg (a :: ·) ih

/-- The attributes of the demo header, read with the policy after two changes. -/
example : ∃ h, encryptHybridHeader Demo.symmetric (bls Demo.curveF) Demo.codecs .debug64 Demo.policy Demo.mkF.pubKey [Demo.low, Demo.hr] (some Demo.metadata)
    5 7 Demo.nonce = .ok h ∧ readValues h.encryptedHeaderBytes ≠ [] ∧ Demo.grown.names (readValues h.encryptedHeaderBytes) = [Demo.low, Demo.hr] := by
  obtain ⟨h, hh⟩ := Demo.header_exists
  have h1 := C95_attributes Demo.codecs_lawful Demo.policy_reachable Demo.evolves hh
  refine ⟨h, hh, fun h0 => ?_, h1⟩
  rw [h0] at h1
  exact absurd h1 (by simp [Policy.names])

/-- **C95**, consequence: headers made under a policy for different lists of attributes are different, whatever the keys, the elements, the metadata and the
randomness: an eavesdropper tells them apart with certainty. -/
theorem C95_differ (hcs : cs.Lawful) (hp : p.Reachable) {pub' : MasterPublicKey G2 Gt} {atts' : List Attribute} {md' : Option Metadata} {random' : Gt}
    {s' : K} {nonce' : Nonce} {h' : EncryptedHeader Key} (henc : encryptHybridHeader e bm cs t p pub atts md random s nonce = .ok h)
    (henc' : encryptHybridHeader e bm cs t p pub' atts' md' random' s' nonce' = .ok h') (hne : atts ≠ atts') :
    h.encryptedHeaderBytes ≠ h'.encryptedHeaderBytes := by
  intro heq
  have h1 := C95_attributes hcs hp (.nil p) henc
  have h2 := C95_attributes hcs hp (.nil p) henc'
  rw [heq, h2] at h1
  exact hne h1.symm

/-- The two demo headers. -/
example : ∃ h h', encryptHybridHeader Demo.symmetric (bls Demo.curveF) Demo.codecs .debug64 Demo.policy Demo.mkF.pubKey [Demo.low, Demo.hr] (some Demo.metadata)
    5 7 Demo.nonce = .ok h ∧
    encryptHybridHeader Demo.symmetric (bls Demo.curveF) Demo.codecs .debug64 Demo.policy Demo.mkF.pubKey [Demo.low] none 5 7 Demo.nonce = .ok h' ∧
    h.encryptedHeaderBytes ≠ h'.encryptedHeaderBytes := by
  obtain ⟨h, hh⟩ := Demo.header_exists
  obtain ⟨h', hh'⟩ := Demo.header_low_exists
  exact ⟨h, h', hh, hh', C95_differ Demo.codecs_lawful Demo.policy_reachable hh hh' (by decide)⟩

end

section
variable {K P Q QP T : Type} [Field K] [DecidableEq K] [AddCommGroup P] [Module K P] [AddCommGroup Q] [Module K Q] [AddCommGroup T] [Module K T]
variable {cs : Codecs K P Q T} {t : Target}

/-- **C95**, user keys: whoever sees the bytes of a user key, and a policy at least as recent as the one of the key, reads off which attributes it grants. -/
theorem C95_key (c : Curve K P Q QP T) (hcs : cs.Lawful) {size : Nat} {rnd : Nat → K} {y : K} {mk : MasterKey K P Q T}
    (hmk : generateMasterKey (bls c) size rnd y = .ok mk) {p p' : Policy} {ap : AccessPolicy} {key : DecryptionKey K QP Q} (hk : Issued c mk p ap key)
    {l : List Change} (he : p.Evolves l p') {b : Bytes} (hb : (userKeyCodec t cs (bls c)).enc key = .ok b) (a : Attribute) :
    a ∈ p'.names (readKeyValues b) ↔ ap.Grants p a := by
  obtain ⟨tI, hlen, hnz, rfl⟩ := generateMasterKey_inv c hmk
  obtain ⟨hp, F, msp, lam, hok⟩ := issued_ok c hnz hk
  have hlater := evolves_later he (reachable_wf hp)
  have hwf := reachable_wf hp
  have hkv : readKeyValues b = msp.rowToAttr.map UInt32.toNat := by
    obtain ⟨x, h1, hb⟩ := Res.bind_eq_ok.1 hb
    obtain ⟨z, h2, hb⟩ := Res.bind_eq_ok.1 hb
    simp only [Res.ok.injEq] at hb
    have hne : msp.rowToAttr ≠ [] := by
      intro h
      have := hok.mspFor.perm.length_eq
      rw [h] at this
      exact F.leaves_ne_nil (List.length_eq_zero_iff.1 this.symm)
    rw [hok.key_eq] at h1 h2
    have hl : (keyOf c tI msp lam).rawDI.length = msp.rowToAttr.length := by simp [keyOf]
    obtain ⟨r, e1, e2, e3, _⟩ := vecEnc_bytes hcs.g3 h1 (by intro h; rw [h] at hl; exact hne (List.length_eq_zero_iff.1 hl.symm))
    rw [hl] at e1 e2 e3
    unfold mspEnc at h2
    obtain ⟨_, _, h2⟩ := Res.bind_eq_ok.1 h2
    obtain ⟨_, _, h2⟩ := Res.bind_eq_ok.1 h2
    obtain ⟨nr, _, h2⟩ := Res.bind_eq_ok.1 h2
    obtain ⟨nc, _, h2⟩ := Res.bind_eq_ok.1 h2
    obtain ⟨parts, _, h2⟩ := Res.bind_eq_ok.1 h2
    simp only [Res.ok.injEq] at h2
    have hrta : (keyOf c tI msp lam).msp.rowToAttr = msp.rowToAttr := rfl
    rw [hrta] at h2
    have hfull : b = (be32 msp.rowToAttr.length.toUInt32 ++ r ++ (be32 nr ++ be32 nc)) ++ ((msp.rowToAttr.map be32).flatten ++ (parts.map List.flatten).flatten) := by
      rw [← hb, ← h2, e1]; simp
    have hw0 : wordAt b 0 = msp.rowToAttr.length := by
      rw [wordAt_at (o := 0) (x := []) (n := msp.rowToAttr.length.toUInt32)
        (r := r ++ ((be32 nr ++ be32 nc) ++ ((msp.rowToAttr.map be32).flatten ++ (parts.map List.flatten).flatten))) (by rw [hfull]; simp) rfl, toNat_toUInt32 e3]
    unfold readKeyValues
    rw [hw0, ← wordAt_labels (be32 msp.rowToAttr.length.toUInt32 ++ r ++ (be32 nr ++ be32 nc)) (parts.map List.flatten).flatten msp.rowToAttr]
    refine List.map_congr_left fun i _ => ?_
    rw [← hfull]
    congr 1
    simp only [List.length_append, be32_length, e2]
    omega
  rw [hkv]
  unfold Policy.names
  simp only [List.mem_filterMap, List.mem_map]
  constructor
  · rintro ⟨_, ⟨v, hv, rfl⟩, hn⟩
    obtain ⟨b, hb, hbv⟩ := (hok.form.leaves v).1 (hok.mspFor.perm.mem_iff.1 hv)
    rw [named_eq hlater.wf (hlater.mono _ _ hbv)] at hn
    obtain rfl : b = a := by simpa using hn
    exact hb
  · intro ha
    obtain ⟨v, _, hv⟩ := Policy.currentValue_known hwf ha.known
    exact ⟨v.toNat, ⟨v, hok.mspFor.perm.mem_iff.2 ((hok.form.leaves v).2 ⟨a, ha, hv⟩), rfl⟩, named_eq hlater.wf (hlater.mono _ _ hv)⟩

/-- The bytes of the demo key show that it grants `HR` and `Low`, and not `RnD`. -/
example : ∃ key b, engineGenerateUserKey (bls Demo.curveF) Demo.policy Demo.mkF.privKey Demo.ap Demo.drawsF = .ok key ∧
    (userKeyCodec .debug64 Demo.codecs (bls Demo.curveF)).enc key = .ok b ∧ Demo.hr ∈ Demo.grown.names (readKeyValues b) ∧
    Demo.low ∈ Demo.grown.names (readKeyValues b) ∧ Demo.rnd' ∉ Demo.grown.names (readKeyValues b) := by
  obtain ⟨key, hkey⟩ := Demo.keyF_exists
  have hb : ∃ b, (engineGenerateUserKey (bls Demo.curveF) Demo.policy Demo.mkF.privKey Demo.ap Demo.drawsF >>= fun key =>
      (userKeyCodec .debug64 Demo.codecs (bls Demo.curveF)).enc key) = .ok b := Demo.exists_of_isOk (by decide +kernel)
  obtain ⟨b, hb⟩ := hb
  rw [hkey, Res.ok_bind] at hb
  have hmk : generateMasterKey (bls Demo.curveF) 8 Demo.drawsF 3 = .ok Demo.mkF := Demo.mkF_eq
  have h := C95_key Demo.curveF Demo.codecs_lawful hmk (.generate _ Demo.policy_reachable hkey) Demo.evolves hb
  refine ⟨key, b, hkey, hb, (h _).2 (Or.inr (Or.inl ?_)), (h _).2 (Or.inl ?_), fun hr => ?_⟩
  · exact ⟨["RnD"], ["MKG"], false, by decide +kernel, by decide +kernel, rfl, Or.inl rfl⟩
  · exact ⟨["Low"], [], true, by decide +kernel, by decide +kernel, rfl, Or.inr ⟨rfl, by decide +kernel⟩⟩
  · have hf : ∀ {l : List String} {x : Bool}, hget Demo.policy.axes "Dpt" = some (l, x) → x = false := by
      intro l x hx
      have hd : hget Demo.policy.axes "Dpt" = some (["RnD", "HR", "MKG"], false) := by decide +kernel
      rw [hd] at hx
      simpa using (congrArg (fun o => o.map Prod.snd) hx).symm
    rcases (h _).1 hr with ⟨_, _, _, _, _, hax, _⟩ | ⟨_, _, x, hg, _, _, hn | ⟨hx, _⟩⟩ | ⟨_, _, x, hg, _, _, hn | ⟨hx, _⟩⟩
    · exact absurd hax (by decide)
    · exact absurd hn (by decide)
    · rw [hf hg] at hx; cases hx
    · exact absurd hn (by decide)
    · rw [hf hg] at hx; cases hx

end

end Abe
