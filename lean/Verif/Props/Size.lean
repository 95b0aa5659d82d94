import Verif.Spec.Size
import Verif.Props.History
import Verif.Props.Codec
import Verif.Props.DemoBytes
import Verif.Props.Hybrid
import Verif.Props.Fixtures
import Verif.Proofs.PolicyDecide

set_option linter.unusedSectionVars false

/-!
# Sizes of keys

Property C86.
-/

namespace Abe

variable {K P Q QP T : Type} [Field K] [DecidableEq K] [AddCommGroup P] [Module K P] [AddCommGroup Q] [Module K Q]
  [AddCommGroup T] [Module K T]

theorem orAll_ands {l : List UInt32} {n : Node} (h : orAll l = some n) : n.ands = 0 := by
  have fold : ∀ (vs : List UInt32) (m : Node), (vs.foldl (fun n v => Node.or n (.leaf v)) m).ands = m.ands := by
    intro vs
    induction vs with
    | nil => intro m; rfl
    | cons v vs ih => intro m; simp only [List.foldl_cons, ih, Node.ands, Nat.add_zero]
  cases l with
  | nil => simp [orAll] at h
  | cons v vs =>
    simp only [orAll, Option.some.injEq] at h
    subst h
    exact fold vs _

theorem ofOption_ok {α : Type} {e : FormatErr} {o : Option α} {a : α} (h : (Res.ofOption e o : Out α) = .ok a) : o = some a := by
  cases o with
  | none => simp [Res.ofOption] at h
  | some x => simpa [Res.ofOption] using h

theorem heapNode_ands {p : Policy} {of a : Attribute} {n : Node} (h : heapNode p of a = .ok n) : n.ands = 0 := by
  unfold heapNode at h
  split at h
  · simp at h
  · exact orAll_ands (ofOption_ok h)

theorem foldHeaps_ands {p : Policy} {of : Attribute} {ax : String} : ∀ {names : List String} {val n : Node}, val.ands = 0 →
    foldRes (fun val elem => (do
      let n ← heapNode p of ⟨ax, elem⟩
      .ok (.or val n) : Out Node)) val names = .ok n → n.ands = 0 := by
  intro names
  induction names with
  | nil =>
    intro val n h0 h
    simp only [foldRes, Res.ok.injEq] at h
    exact h ▸ h0
  | cons x names ih =>
    intro val n h0 h
    simp only [foldRes] at h
    obtain ⟨v, hv, h⟩ := Res.bind_eq_ok.1 h
    obtain ⟨m, hm, hv⟩ := Res.bind_eq_ok.1 hv
    simp only [Res.ok.injEq] at hv
    subst hv
    exact ih (by simp only [Node.ands, h0, heapNode_ands hm]) h

theorem policyToFormula_ands {p : Policy} : ∀ {ap : AccessPolicy} {n : Node}, policyToFormula p ap = .ok n → n.ands = ap.ands
  | .attr a, n, h => by
    simp only [policyToFormula, policyToNode] at h
    split at h
    · simp at h
    · split at h
      · obtain ⟨i, _, h⟩ := Res.bind_eq_ok.1 h
        obtain ⟨val, hval, h⟩ := Res.bind_eq_ok.1 h
        split at h
        · exact foldHeaps_ands (heapNode_ands hval) h
        · simp only [Res.ok.injEq] at h
          exact h ▸ heapNode_ands hval
      · simp at h
  | .and l r, n, h => by
    simp only [policyToFormula] at h
    obtain ⟨l', hl, h⟩ := Res.bind_eq_ok.1 h
    obtain ⟨r', hr, h⟩ := Res.bind_eq_ok.1 h
    simp only [Res.ok.injEq] at h
    subst h
    simp only [Node.ands, AccessPolicy.ands, policyToFormula_ands hl, policyToFormula_ands hr]
    try omega
  | .or l r, n, h => by
    simp only [policyToFormula] at h
    obtain ⟨l', hl, h⟩ := Res.bind_eq_ok.1 h
    obtain ⟨r', hr, h⟩ := Res.bind_eq_ok.1 h
    simp only [Res.ok.injEq] at h
    subst h
    simp only [Node.ands, AccessPolicy.ands, policyToFormula_ands hl, policyToFormula_ands hr]
  | .all, n, h => by simp [policyToFormula] at h

theorem toMsp_cols {n : Node} {m : Msp Int} (h : n.toMsp = .ok m) : m.nbCol = n.ands + 1 := by
  rcases toMsp_spec n with ⟨_, m', h1, hm⟩ | ⟨_, h1⟩
  · rw [h, Res.ok.injEq] at h1
    exact h1 ▸ hm.nbCol
  · rw [h] at h1; simp at h1

theorem policyToMsp_cols {p : Policy} {ap : AccessPolicy} {m : Msp Int} (h : policyToMsp p ap = .ok m) : m.nbCol = ap.ands + 1 := by
  unfold policyToMsp at h
  split at h
  · obtain ⟨n, hn, h⟩ := Res.bind_eq_ok.1 h
    rw [toMsp_cols h, orAll_ands (ofOption_ok hn)]
    rfl
  · obtain ⟨n, hn, h⟩ := Res.bind_eq_ok.1 h
    rw [toMsp_cols h, policyToFormula_ands hn]

variable {cs : Codecs K P Q T} {t : Target}

/-- **C86.** Sizes of the master keys made for a policy with a budget of `n` attribute values: `36 + 32 n` bytes for the private, `292 + 48 n` for the public and
`4 + 96 n` for the delegation key. -/
theorem C86_master_key_sizes (h : cs.Lawful) (c : Curve K P Q QP T) {p : Policy} {rnd : Nat → K} {y : K} {mk : MasterKey K P Q T}
    (hmk : engineGenerateMasterKey (bls c) p rnd y = .ok mk) (h0 : p.maxAttributeCreations ≠ 0) :
    ∃ b1 b2 b3, (privKeyCodec t cs).enc mk.privKey = .ok b1 ∧ (pubKeyCodec t cs).enc mk.pubKey = .ok b2 ∧ (delKeyCodec t cs).enc mk.delKey = .ok b3 ∧
      b1.length = 36 + 32 * p.maxAttributeCreations.toNat ∧ b2.length = 292 + 48 * p.maxAttributeCreations.toNat ∧
      b3.length = 4 + 96 * p.maxAttributeCreations.toNat := by
  obtain ⟨tI, hl, hnz, rfl⟩ := generateMasterKey_inv c hmk
  have hpos : 0 < tI.length := by
    rw [hl]
    rcases Nat.eq_zero_or_pos p.maxAttributeCreations.toNat with h' | h'
    · exact absurd (UInt32.toNat_inj.1 (by simpa using h')) h0
    · exact h'
  have hlt : tI.length < 2 ^ 32 := by rw [hl]; exact p.maxAttributeCreations.toNat_lt
  have key : ∀ {α : Type} {cd : Codec α} {n : Nat} (hf : cd.Fixed n) (l : List α), l.length = tI.length →
      ∃ b, vecEnc cd l = .ok b ∧ b.length = 4 + tI.length * n := by
    intro α cd n hf l hlen
    have hne : l ≠ [] := by rintro rfl; simp at hlen; omega
    obtain ⟨bs, _, e1, e2⟩ := vecEnc_ok hf hne (by omega)
    exact ⟨_, e1, by rw [e2, vecLen_eq hf hne, hlen]⟩
  obtain ⟨a1, e1, l1⟩ := key h.scalar tI rfl
  obtain ⟨a2, e2, l2⟩ := key h.g2 (pubOf c tI y).tI (by simp [pubOf])
  obtain ⟨a3, e3, l3⟩ := key h.g3 (delOf c tI).invTI (by simp [delOf])
  obtain ⟨s1, f1, m1⟩ := h.scalar.enc y
  obtain ⟨s2, f2, m2⟩ := h.gt.enc (pubOf c tI y).y
  refine ⟨a1 ++ s1, a2 ++ s2, a3, ?_, ?_, ?_, ?_, ?_, ?_⟩
  · simp only [privKeyCodec, e1, f1, Res.ok_bind]
  · simp only [pubKeyCodec, e2, f2, Res.ok_bind]
  · simp only [delKeyCodec, e3]
  · rw [List.length_append, l1, m1, hl]; ring
  · rw [List.length_append, l2, m2, hl]; ring
  · rw [l3, hl]; ring

/-- **C86.** Size of a user key: it is given by the number of attribute values that the access policy grants and the number of `And` in it. -/
theorem C86_user_key_size (h : cs.Lawful) (c : Curve K P Q QP T) {size : Nat} {rnd : Nat → K} {y : K} {mk : MasterKey K P Q T}
    (hmk : generateMasterKey (bls c) size rnd y = .ok mk) {p : Policy} {ap : AccessPolicy} {key : DecryptionKey K QP Q} (hk : Issued c mk p ap key)
    {S : Finset UInt32} (hS : ∀ v, v ∈ S ↔ ∃ b, ap.Grants p b ∧ p.HasValue b v) :
    ∃ b, (userKeyCodec t cs (bls c)).enc key = .ok b ∧ b.length = userKeySize S.card ap.ands := by
  obtain ⟨tI, _, hnz, rfl⟩ := generateMasterKey_inv c hmk
  obtain ⟨hp, F, msp, lam, hk⟩ := issued_ok c hnz hk
  have hw := reachable_wf hp
  have hcomp := hk.compiled
  have hrta : msp.rowToAttr.length = S.card := by
    rw [← List.toFinset_card_of_nodup hk.mspFor.nodup]
    congr 1
    ext v
    rw [List.mem_toFinset, hk.mspFor.perm.mem_iff, hk.form.leaves, hS]
  have hR : msp.nbRow = S.card := by rw [hk.mspFor.nbRow, ← hk.mspFor.rta, hrta]
  have hC : msp.nbCol = ap.ands + 1 := policyToMsp_cols hcomp
  obtain ⟨n, hn⟩ := policyToMsp_toMsp hcomp
  obtain ⟨hreg, hcr, _⟩ := toMsp_regular hn (scalarFromI32 (K := K))
  have hcard : S.card < 2 ^ 32 := by
    have h0 : (0 : UInt32) ∉ msp.rowToAttr := by
      intro hm
      rw [hk.mspFor.perm.mem_iff, hk.form.leaves] at hm
      obtain ⟨b, _, heap, hh, hv⟩ := hm
      have := (hw.range 0 (List.mem_flatten.2 ⟨heap, List.mem_map.2 ⟨(b, heap), hget_mem hh, rfl⟩, hv⟩)).1
      simp at this
    have := nodup_bound (List.nodup_cons.2 ⟨h0, hk.mspFor.nodup⟩) (N := 2 ^ 32) (fun a _ => a.toNat_lt)
    rw [List.length_cons, hrta] at this
    omega
  have hpos : 0 < S.card := by rw [← hR]; exact hreg.row_pos
  rw [hk.key_eq]
  have hne : (keyOf c tI msp lam).rawDI ≠ [] := by
    intro he
    have := congrArg List.length he
    simp only [keyOf, List.length_map, hrta, List.length_nil] at this
    omega
  have hlen : (keyOf c tI msp lam).rawDI.length = S.card := by simp only [keyOf, List.length_map, hrta]
  have hcols : (msp.convert (scalarFromI32 (K := K))).nbCol < 2 ^ 32 := by
    have : (msp.convert (scalarFromI32 (K := K))).nbRow = S.card := hR
    omega
  obtain ⟨bs, _, e1, e2⟩ := vecEnc_ok h.g3 hne (by rw [hlen]; exact hcard)
  obtain ⟨parts, _, f1, f2, f3⟩ := mspEnc_ok h.scalar hreg (by change msp.nbRow < _; rw [hR]; exact hcard) hcols
  have f4 := msp_len h.scalar hreg (by change msp.nbRow < _; rw [hR]; exact hcard) hcols f1
  refine ⟨_, by simp only [userKeyCodec, e1, Res.ok_bind]; rw [show (keyOf c tI msp lam).msp = msp.convert scalarFromI32 from rfl, f1]; rfl, ?_⟩
  rw [List.length_append, e2, f4, f3, vecLen_eq h.g3 hne, hlen]
  change 4 + S.card * 96 + (8 + msp.nbRow * 4 + msp.nbRow * (msp.nbCol * 32)) = _
  rw [hR, hC, userKeySize]
  ring

/-- The values that an access policy grants. -/
theorem granted_values {p : Policy} (ap : AccessPolicy) : ∃ S : Finset UInt32, ∀ v, v ∈ S ↔ ∃ b, ap.Grants p b ∧ p.HasValue b v := by
  classical
  refine ⟨p.allValues.toFinset.filter fun v => ∃ b, ap.Grants p b ∧ p.HasValue b v, fun v => ?_⟩
  rw [Finset.mem_filter, List.mem_toFinset]
  refine ⟨fun h => h.2, fun h => ⟨?_, h⟩⟩
  obtain ⟨b, _, heap, hh, hv⟩ := h
  exact List.mem_flatten.2 ⟨heap, List.mem_map.2 ⟨(b, heap), hget_mem hh, rfl⟩, hv⟩

/-- **C86.** Growth by rotation: when the attribute rotated is one that the access policy grants, a key made afterwards has one row more, that is
`100 + 32 (ands + 1)` bytes; other rotations leave the size unchanged. -/
theorem C86_rotation_growth (h : cs.Lawful) (c : Curve K P Q QP T) {size : Nat} {rnd : Nat → K} {y : K} {mk : MasterKey K P Q T}
    (hmk : generateMasterKey (bls c) size rnd y = .ok mk) {p p' : Policy} {a : Attribute} (hr : p.rotate a = some p') {ap : AccessPolicy}
    {key key' : DecryptionKey K QP Q} (hk : Issued c mk p ap key) (hk' : Issued c mk p' ap key') :
    ∃ b b', (userKeyCodec t cs (bls c)).enc key = .ok b ∧ (userKeyCodec t cs (bls c)).enc key' = .ok b' ∧
      (ap.Grants p a → b'.length = b.length + 100 + 32 * (ap.ands + 1)) ∧ (¬ ap.Grants p a → b'.length = b.length) := by
  have hw : p.WF := by
    obtain ⟨tI, _, hnz, rfl⟩ := generateMasterKey_inv c hmk
    exact reachable_wf (issued_ok c hnz hk).1
  obtain ⟨_, hax, _, hlast, _, _, _, hval⟩ := rotate_spec hw hr
  obtain ⟨S, hS⟩ := granted_values (p := p) ap
  obtain ⟨S', hS'⟩ := granted_values (p := p') ap
  obtain ⟨b, e1, l1⟩ := C86_user_key_size (t := t) h c hmk hk hS
  obtain ⟨b', e2, l2⟩ := C86_user_key_size (t := t) h c hmk hk' hS'
  have hmem : ∀ v, v ∈ S' ↔ v ∈ S ∨ ap.Grants p a ∧ v = p'.lastAttributeValue := by
    intro v
    rw [hS', hS]
    constructor
    · rintro ⟨x, hg, hv⟩
      rw [AccessPolicy.grants_axes hax] at hg
      rcases (hval x v).1 hv with hv | ⟨rfl, rfl⟩
      · exact Or.inl ⟨x, hg, hv⟩
      · exact Or.inr ⟨hg, rfl⟩
    · rintro (⟨x, hg, hv⟩ | ⟨hg, rfl⟩)
      · exact ⟨x, (AccessPolicy.grants_axes hax x ap).2 hg, (hval x v).2 (Or.inl hv)⟩
      · exact ⟨a, (AccessPolicy.grants_axes hax a ap).2 hg, (hval _ _).2 (Or.inr ⟨rfl, rfl⟩)⟩
  refine ⟨b, b', e1, e2, fun hg => ?_, fun hg => ?_⟩
  · have hnew : p'.lastAttributeValue ∉ S := by
      rw [hS]
      rintro ⟨x, _, heap, hh, hv⟩
      have := (hw.range _ (List.mem_flatten.2 ⟨heap, List.mem_map.2 ⟨(x, heap), hget_mem hh, rfl⟩, hv⟩)).2
      omega
    have hins : S' = insert p'.lastAttributeValue S := by
      ext v
      rw [hmem, Finset.mem_insert]
      exact ⟨fun h => h.elim Or.inr fun h => Or.inl h.2, fun h => h.elim (fun h => Or.inr ⟨hg, h⟩) Or.inl⟩
    rw [l1, l2, hins, Finset.card_insert_of_notMem hnew, userKeySize, userKeySize]
    ring
  · have : S' = S := by
      ext v
      rw [hmem]
      exact ⟨fun h => h.elim id fun h => absurd h.1 hg, Or.inl⟩
    rw [l1, l2, this]

namespace Demo

/-- Master keys of the demo, for eight values: 292, 676 and 772 bytes. -/
example : ∃ b1 b2 b3, (privKeyCodec .release64 codecs).enc mkF.privKey = .ok b1 ∧ (pubKeyCodec .release64 codecs).enc mkF.pubKey = .ok b2 ∧
    (delKeyCodec .release64 codecs).enc mkF.delKey = .ok b3 ∧ b1.length = 292 ∧ b2.length = 676 ∧ b3.length = 772 :=
  C86_master_key_sizes codecs_lawful curveF mkF_eq (by decide)

/-- The values granted by `High && (HR || MKG)` are four: those of `Low`, `High`, `HR` and `MKG`. -/
theorem ap_values : ∀ v, v ∈ ({1, 2, 4, 5} : Finset UInt32) ↔ ∃ b, ap.Grants policy b ∧ policy.HasValue b v := by
  have key : ∀ b, ap.Grants policy b ↔ b ∈ ap.grantsList policy := fun b => AccessPolicy.mem_grantsList.symm
  have hl : ap.grantsList policy = [high, low, hr, mkg] := by decide +kernel
  simp only [key, hl, Policy.HasValue]
  intro v
  constructor
  · intro hv
    simp only [Finset.mem_insert, Finset.mem_singleton] at hv
    rcases hv with rfl | rfl | rfl | rfl
    · exact ⟨low, by simp, [1], by decide +kernel, by simp⟩
    · exact ⟨high, by simp, [2], by decide +kernel, by simp⟩
    · exact ⟨hr, by simp, [4], by decide +kernel, by simp⟩
    · exact ⟨mkg, by simp, [5], by decide +kernel, by simp⟩
  · rintro ⟨b, hb, heap, hh, hv⟩
    simp only [List.mem_cons, List.not_mem_nil, or_false] at hb
    rcases hb with rfl | rfl | rfl | rfl
    · obtain rfl : [2] = heap := Option.some.inj ((by decide +kernel : some [2] = hget policy.attributeToInt high).trans hh)
      simp_all
    · obtain rfl : [1] = heap := Option.some.inj ((by decide +kernel : some [1] = hget policy.attributeToInt low).trans hh)
      simp_all
    · obtain rfl : [4] = heap := Option.some.inj ((by decide +kernel : some [4] = hget policy.attributeToInt hr).trans hh)
      simp_all
    · obtain rfl : [5] = heap := Option.some.inj ((by decide +kernel : some [5] = hget policy.attributeToInt mkg).trans hh)
      simp_all

/-- A key for `High && (HR || MKG)` takes 668 bytes, and 164 more after a rotation of `HR`. -/
example : ∃ key key' b b', Issued curveF mkF policy ap key ∧ Issued curveF mkF rotated ap key' ∧
    (userKeyCodec .release64 codecs (bls curveF)).enc key = .ok b ∧ (userKeyCodec .release64 codecs (bls curveF)).enc key' = .ok b' ∧
    b.length = 668 ∧ b'.length = 832 := by
  obtain ⟨key, hkey⟩ := keyF_exists
  obtain ⟨key', hkey'⟩ : ∃ key, engineGenerateUserKey (bls curveF) rotated mkF.privKey ap drawsF = .ok key := exists_of_isOk (by decide +kernel)
  have hrot : policy.rotate hr = some rotated := by decide +kernel
  have hk : Issued curveF mkF policy ap key := .generate _ policy_reachable hkey
  have hk' : Issued curveF mkF rotated ap key' := .generate _ (.rotate _ policy_reachable hrot) hkey'
  obtain ⟨b, e, l⟩ := C86_user_key_size (t := .release64) codecs_lawful curveF (size := 8) mkF_eq hk ap_values
  obtain ⟨b1, b', e1, e2, g, _⟩ := C86_rotation_growth (t := .release64) codecs_lawful curveF (size := 8) mkF_eq hrot hk hk'
  obtain rfl : b = b1 := by rw [e] at e1; simpa using e1
  refine ⟨key, key', b, b', hk, hk', e, e2, l, ?_⟩
  rw [g (AccessPolicy.mem_grantsList.1 (by decide +kernel)), l]
  rfl

end Demo

/-- **C86.** The figures of the documentation (`README.md`:201): a header without metadata takes 404 bytes for two attributes (one partition) and 508 for
four (three partitions), with any policy, keys and random values. -/
theorem C86_readme_header_sizes {Key Nonce : Type} {e : External Key Nonce} {tag : Nat} {p : Policy} {rnd : Nat → K} {y : K} {mk : MasterKey K P Q T}
    {atts : List Attribute} {random : T} {s : K} {nonce : Nonce} {hd : EncryptedHeader Key}
    (c : Curve K P Q QP T) (hcs : cs.Lawful) (he : e.Lawful tag) (hp : p.Reachable) (hmk : engineGenerateMasterKey (bls c) p rnd y = .ok mk)
    (henc : encryptHybridHeader e (bls c) cs t p mk.pubKey atts none random s nonce = .ok hd) :
    (atts.length = 2 → hd.encryptedHeaderBytes.length = 404) ∧ (atts.length = 4 → hd.encryptedHeaderBytes.length = 508) := by
  constructor <;> intro h2 <;>
    rw [(C36_length c hcs he (reachable_wf hp) hmk (by rintro rfl; simp at h2) henc).1 rfl, h2]

/-- The header of the demo for `Low` and `HR` has 404 bytes. -/
example : ∃ hd, encryptHybridHeader Demo.symmetric (bls Demo.curveF) Demo.codecs .release64 Demo.policy Demo.mkF.pubKey [Demo.low, Demo.hr] none 5 7 Demo.nonce = .ok hd ∧
    hd.encryptedHeaderBytes.length = 404 := by
  obtain ⟨hd, h⟩ : ∃ hd, encryptHybridHeader Demo.symmetric (bls Demo.curveF) Demo.codecs .release64 Demo.policy Demo.mkF.pubKey [Demo.low, Demo.hr] none 5 7 Demo.nonce = .ok hd :=
    Demo.exists_of_isOk (by decide +kernel)
  exact ⟨hd, h, (C86_readme_header_sizes Demo.curveF Demo.codecs_lawful Demo.symmetric_lawful Demo.policy_reachable Demo.mkF_eq h).1 rfl⟩

/-- The keys stored in the repository have these sizes: a user key with seven values and one `And`, a public key for a hundred values. -/
example : Fixtures.userKey.length = userKeySize 7 1 ∧ Fixtures.publicKey.length = 292 + 48 * 100 := by decide +kernel

end Abe
