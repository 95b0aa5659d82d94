import Verif.Spec.Mixed
import Verif.Props.Chosen
import Verif.Props.Scheme

/-!
# Malformed ciphertexts

Property C93: decryption does not check that a ciphertext comes from an encryption.
-/

namespace Abe

set_option linter.unusedSectionVars false

variable {K P Q QP T Key Nonce : Type} [Field K] [DecidableEq K] [AddCommGroup P] [Module K P] [AddCommGroup Q] [Module K Q]
  [AddCommGroup T] [Module K T]

/-- Only the components at the labels of the key are read. -/
theorem selectRows_congr {G1 G2 G3 Gt : Type} (key : DecryptionKey K G1 G3) (enc enc' : CipherText G2 Gt) :
    ∀ (l : List UInt32) (i : Nat), (∀ (j : Nat) (a : UInt32), l[j]? = some a → key.msp.getRowFromAttr a ≠ none → enc.eI[i + j]? = enc'.eI[i + j]?) →
      selectRows key enc l i = selectRows key enc' l i
  | [], _, _ => rfl
  | a :: l, i, h => by
    have hrec := selectRows_congr key enc enc' l (i + 1) (fun j b hb hk => by
      have := h (j + 1) b (by simpa using hb) hk
      rwa [show i + (j + 1) = i + 1 + j by omega] at this)
    unfold selectRows
    cases hr : key.msp.getRowFromAttr a with
    | none => exact hrec
    | some row =>
      have h0 := h 0 a (by simp) (by rw [hr]; simp)
      simp only [Nat.add_zero] at h0
      simp only [hrec, idx, h0]

theorem decrypt_congr (c : Curve K P Q QP T) (key : DecryptionKey K QP Q) (enc enc' : CipherText P T) (hg : enc.gamma = enc'.gamma) (he : enc.ePrime = enc'.ePrime)
    (h : ∀ (j : Nat) (a : UInt32), enc.gamma[j]? = some a → key.msp.getRowFromAttr a ≠ none → enc.eI[j]? = enc'.eI[j]?) :
    decrypt (bls c) enc key = decrypt (bls c) enc' key := by
  unfold decrypt
  rw [selectRows_congr key enc enc' enc.gamma 0 (by simpa using h), hg, he]

theorem getRow_mem {F : Node} {msp : Msp Int} (h : MspFor F msp) (c : Curve K P Q QP T) (tI : List K) (lam : UInt32 → K) {a : UInt32}
    (ha : (keyOf c tI msp lam).msp.getRowFromAttr a ≠ none) : a ∈ F.leaves := by
  rw [show (keyOf c tI msp lam).msp.getRowFromAttr a = msp.getRowFromAttr a from rfl] at ha
  obtain ⟨i, hi⟩ := Option.ne_none_iff_exists'.1 ha
  exact h.attr_mem ((h.lookup a i).1 hi)

theorem mixed_inv (c : Curve K P Q QP T) {tI : List K} {y : K} {masked : T} {l : List (UInt32 × K)} {ct : CipherText P T}
    (h : mixed (bls c) (pubOf c tI y) masked l = .ok ct) :
    (∀ x ∈ l, x.1.toNat < tI.length) ∧ ct = ⟨l.map Prod.fst, masked, l.map fun x => (x.2 * tOf tI x.1) • c.genP⟩ := by
  unfold mixed at h
  obtain ⟨eI, h1, h2⟩ := Res.bind_eq_ok.1 h
  simp only [Res.ok.injEq] at h2
  subst h2
  have key : ∀ (l : List (UInt32 × K)) (eI : List P), mapRes (fun x : UInt32 × K => (do
      let ti ← idx (pubOf c tI y).tI x.1.toNat
      .ok ((bls c).g2Exp ti x.2) : Out P)) l = .ok eI →
      (∀ x ∈ l, x.1.toNat < tI.length) ∧ eI = l.map fun x => (x.2 * tOf tI x.1) • c.genP := by
    intro l
    induction l with
    | nil => intro eI h; simpa [mapRes, eq_comm] using h
    | cons x l ih =>
      intro eI h
      rw [mapRes] at h
      obtain ⟨z, h3, h4⟩ := Res.bind_eq_ok.1 h
      obtain ⟨zs, h5, h6⟩ := Res.bind_eq_ok.1 h4
      simp only [Res.ok.injEq] at h6
      obtain ⟨ih1, ih2⟩ := ih zs h5
      obtain ⟨w, h7, h8⟩ := Res.bind_eq_ok.1 h3
      simp only [Res.ok.injEq] at h8
      have hx : x.1.toNat < tI.length := by
        by_contra hn
        simp [idx, pubOf, List.getElem?_eq_none (not_lt.1 hn)] at h7
      refine ⟨?_, ?_⟩
      · rintro x' (_ | ⟨_, hx'⟩)
        · exact hx
        · exact ih1 _ hx'
      · have hw : w = tOf tI x.1 • c.genP := by
          simp [idx, pubOf, hx] at h7
          rw [← h7, ← tOf_eq hx]
        rw [← h6, ih2, List.map_cons, ← h8, hw, mul_smul]
        rfl
  obtain ⟨g1, g2⟩ := key l eI h1
  exact ⟨g1, by rw [g2]⟩

/-- **C93**, what a key makes of a ciphertext with several scalars: if those at its own labels are all `r`, and the labels satisfy it, it subtracts the mask of `r`. -/
theorem C93_mixed (c : Curve K P Q QP T) {p : Policy} (hw : p.WF) {rnd : Nat → K} {y : K} {mk : MasterKey K P Q T}
    (hmk : engineGenerateMasterKey (bls c) p rnd y = .ok mk) {ap : AccessPolicy} {key : DecryptionKey K QP Q} (hkey : UserKey c p mk ap key)
    {masked : T} {l : List (UInt32 × K)} {ct : CipherText P T} (hct : mixed (bls c) mk.pubKey masked l = .ok ct) {r : K}
    (hr : ∀ v σ, (v, σ) ∈ l → (∃ b, ap.Grants p b ∧ p.HasValue b v) → σ = r)
    (hsat : ap.Sat p fun b => ∃ v, p.HasValue b v ∧ ∃ σ, (v, σ) ∈ l) :
    engineDecrypt (bls c) ct key = .ok (some (masked - r • mk.pubKey.y)) := by
  obtain ⟨tI, _, hnz, rfl⟩ := generateMasterKey_inv c hmk
  obtain ⟨F, msp, lam, hk⟩ := userKey_ok c hw hnz hkey
  obtain ⟨_, rfl⟩ := mixed_inv c hct
  obtain ⟨d1, _⟩ := decrypt_exact c hk r (masked - (r * y) • c.genT) (l.map Prod.fst)
  have hs : ap.Sat p fun b => ∃ v, p.HasValue b v ∧ v ∈ l.map Prod.fst := by simpa using hsat
  have d1 := d1 hs
  rw [show r • (pubOf c tI y).y = (r * y) • c.genT by simp [pubOf, mul_smul], ← d1]
  unfold engineDecrypt
  refine decrypt_congr c key _ _ rfl (by simp [ctOf]) fun j a hj hrow => ?_
  dsimp only at hj ⊢
  rw [hk.key_eq] at hrow
  have hleaf := getRow_mem hk.mspFor c tI lam hrow
  have hgr := (hk.form.leaves a).1 hleaf
  simp only [ctOf, List.getElem?_map, Option.map_map] at hj ⊢
  cases hx : l[j]? with
  | none => rfl
  | some x =>
    rw [hx] at hj
    simp only [Option.map_some, Option.some.injEq] at hj
    subst hj
    simp only [Option.map_some, Function.comp, hr x.1 x.2 (List.mem_of_getElem? hx) hgr]

theorem mixed_ok (c : Curve K P Q QP T) {tI : List K} {y : K} (masked : T) {l : List (UInt32 × K)} (h : ∀ x ∈ l, x.1.toNat < tI.length) :
    ∃ ct, mixed (bls c) (pubOf c tI y) masked l = .ok ct := by
  unfold mixed
  rw [mapRes_of_ok (g := fun x => x.2 • (tOf tI x.1 • c.genP)) (fun x hx => by
    have := h x hx
    simp [idx, pubOf, this, bls, ← tOf_eq this])]
  exact ⟨_, rfl⟩

variable {e : External Key Nonce} {cs : Codecs K P Q T} {t t' : Target} {tag : Nat}

/-- **C93**, the same for headers: anyone makes them with the public key, and every key whose labels all carry the scalar `r` opens them, without an error, to the
symmetric key derived from `masked` without the mask of `r`. -/
theorem C93_header (c : Curve K P Q QP T) (hcs : cs.Lawful) (he : e.Lawful tag) {p : Policy} (hw : p.WF) {rnd : Nat → K} {y : K} {mk : MasterKey K P Q T}
    (hmk : engineGenerateMasterKey (bls c) p rnd y = .ok mk) (ht : 32 ≤ t'.bits) (masked : T) {l : List (UInt32 × K)} (h0 : l ≠ [])
    (hl : ciphertextLen l.length < 2 ^ 32) (hin : ∀ x ∈ l, x.1.toNat < mk.pubKey.tI.length) :
    ∃ b, mixedHeader (bls c) cs t mk.pubKey masked l = .ok b ∧
      ∀ {ap : AccessPolicy} {key : DecryptionKey K QP Q} {r : K}, UserKey c p mk ap key →
        (∀ v σ, (v, σ) ∈ l → (∃ b, ap.Grants p b ∧ p.HasValue b v) → σ = r) → (ap.Sat p fun b => ∃ v, p.HasValue b v ∧ ∃ σ, (v, σ) ∈ l) →
        ∃ g k, cs.gt.enc (masked - r • mk.pubKey.y) = .ok g ∧ e.keyDec (e.shake g e.keyLen) = .ok k ∧
          decryptHybridHeader e (bls c) cs t' key b = .ok ⟨k, ⟨[], none⟩⟩ := by
  have hmk0 := hmk
  obtain ⟨tI, _, hnz, rfl⟩ := generateMasterKey_inv c hmk
  obtain ⟨ct, hct⟩ := mixed_ok (y := y) c masked (l := l) (tI := tI) (by simpa [pubOf] using hin)
  obtain ⟨_, hct'⟩ := mixed_inv c hct
  have hlen : l.length < 2 ^ 32 - 1 := by simp only [ciphertextLen] at hl; omega
  have hg : (ct.gamma ≠ [] ∧ ct.gamma.length < 2 ^ 32 - 1) ∧ (ct.eI ≠ [] ∧ ct.eI.length < 2 ^ 32 - 1) := by
    subst hct'
    simpa [h0] using hlen
  obtain ⟨ek, h1, h2, _, h4⟩ := (cipherText_laws (t := t') hcs (le_refl _) (Nat.two_pow_pos _)).round ct hg
  have hek : ek.length < 2 ^ 32 := by
    rw [h2]
    simp only [cipherTextCodec]
    rw [vecLen_eq u32Codec_fixed hg.1.1, vecLen_eq hcs.g2 hg.2.1, hcs.gt.len]
    subst hct'
    simpa [ciphertextLen] using hl
  have hd : (cipherTextCodec t' cs).dec ek = .ok ct := by simpa using h4 [] (by simpa using fits32 ht hek)
  refine ⟨be32 ek.length.toUInt32 ++ ek, ?_, ?_⟩
  · unfold mixedHeader
    dsimp only
    rw [hct, Res.ok_bind, cipherText_enc_target (t' := t'), h1, Res.ok_bind, u32Len_ok hek, Res.ok_bind]
  · intro ap key r hkey hr hsat
    have hdec := C93_mixed c hw hmk0 hkey hct hr hsat
    obtain ⟨g, hg1, _⟩ := hcs.gt.enc (masked - r • (pubOf c tI y).y)
    obtain ⟨k, hk, _⟩ := he.keyDec_size (e.shake g e.keyLen) (he.shake_length _ _)
    refine ⟨g, k, hg1, hk, ?_⟩
    have := decryptHybridHeader_frame (e := e) (bm := bls c) (cs := cs) (t := t') (key := key) (r := []) hek
    rw [List.append_nil] at this
    rw [this, decryptSymmetricKey_of hd, hdec, Res.ok_bind]
    simp only [Res.ofOption, Res.ok_bind, hg1, hk]
    rfl

/-- **C93**, refutation of agreement: the sender of a header can have two users read it, both without an error, with symmetric keys derived from different
elements, of which one is chosen by the sender and the other differs by a known multiple of `y`. -/
theorem C93_equivocation_refuted (c : Curve K P Q QP T) (hcs : cs.Lawful) (he : e.Lawful tag) {p : Policy} (hw : p.WF) {rnd : Nat → K} {y : K} (hy : y ≠ 0)
    {mk : MasterKey K P Q T} (hmk : engineGenerateMasterKey (bls c) p rnd y = .ok mk) (ht : 32 ≤ t'.bits)
    {ap₁ ap₂ : AccessPolicy} {key₁ key₂ : DecryptionKey K QP Q} (hkey₁ : UserKey c p mk ap₁ key₁) (hkey₂ : UserKey c p mk ap₂ key₂)
    {a₁ a₂ : Attribute} {v₁ v₂ : UInt32} (hv₁ : p.HasValue a₁ v₁) (hv₂ : p.HasValue a₂ v₂) (hin₁ : v₁.toNat < mk.pubKey.tI.length)
    (hin₂ : v₂.toNat < mk.pubKey.tI.length) (hs₁ : ap₁.Sat p (· = a₁)) (hs₂ : ap₂.Sat p (· = a₂))
    (hn₁ : ∀ b, ap₁.Grants p b → ¬ p.HasValue b v₂) (hn₂ : ∀ b, ap₂.Grants p b → ¬ p.HasValue b v₁) (m : T) {r₁ r₂ : K} (hne : r₁ ≠ r₂) :
    ∃ b g₁ g₂ k₁ k₂, mixedHeader (bls c) cs t mk.pubKey (m + r₁ • mk.pubKey.y) [(v₁, r₁), (v₂, r₂)] = .ok b ∧
      cs.gt.enc m = .ok g₁ ∧ e.keyDec (e.shake g₁ e.keyLen) = .ok k₁ ∧ decryptHybridHeader e (bls c) cs t' key₁ b = .ok ⟨k₁, ⟨[], none⟩⟩ ∧
      cs.gt.enc (m + (r₁ - r₂) • mk.pubKey.y) = .ok g₂ ∧ e.keyDec (e.shake g₂ e.keyLen) = .ok k₂ ∧
      decryptHybridHeader e (bls c) cs t' key₂ b = .ok ⟨k₂, ⟨[], none⟩⟩ ∧ g₁ ≠ g₂ := by
  obtain ⟨b, h1, h2⟩ := C93_header (t := t) (t' := t') (e := e) (l := [(v₁, r₁), (v₂, r₂)]) c hcs he hw hmk ht (m + r₁ • mk.pubKey.y) (by simp)
    (by show ciphertextLen 2 < _; decide)
    (by simpa using ⟨hin₁, hin₂⟩)
  obtain ⟨g₁, k₁, a1, a2, a3⟩ := h2 (r := r₁) hkey₁ (by
    intro v σ hm hg
    simp only [List.mem_cons, Prod.mk.injEq, List.not_mem_nil, or_false] at hm
    rcases hm with ⟨rfl, rfl⟩ | ⟨rfl, rfl⟩
    · rfl
    · obtain ⟨b, hb, hb'⟩ := hg
      exact absurd hb' (hn₁ b hb)) (AccessPolicy.sat_mono (fun b hb => ⟨v₁, hb ▸ hv₁, r₁, by simp⟩) hs₁)
  obtain ⟨g₂, k₂, b1, b2, b3⟩ := h2 (r := r₂) hkey₂ (by
    intro v σ hm hg
    simp only [List.mem_cons, Prod.mk.injEq, List.not_mem_nil, or_false] at hm
    rcases hm with ⟨rfl, rfl⟩ | ⟨rfl, rfl⟩
    · obtain ⟨b, hb, hb'⟩ := hg
      exact absurd hb' (hn₂ b hb)
    · rfl) (AccessPolicy.sat_mono (fun b hb => ⟨v₂, hb ▸ hv₂, r₂, by simp⟩) hs₂)
  have e2 : m + r₁ • mk.pubKey.y - r₂ • mk.pubKey.y = m + (r₁ - r₂) • mk.pubKey.y := by rw [sub_smul]; abel
  rw [add_sub_cancel_right] at a1
  rw [e2] at b1
  refine ⟨b, g₁, g₂, k₁, k₂, h1, a1, a2, a3, b1, b2, b3, ?_⟩
  rintro rfl
  have d1 := hcs.gt.round _ _ [] a1
  rw [hcs.gt.round _ _ [] b1, Res.ok.injEq] at d1
  have hz : (r₁ - r₂) • mk.pubKey.y = 0 := by simpa using d1
  obtain ⟨tI, _, hnz, rfl⟩ := generateMasterKey_inv c hmk
  rcases smul_eq_zero.1 hz with h | h
  · exact hne (sub_eq_zero.1 h)
  · rcases smul_eq_zero.1 (show y • c.genT = 0 from h) with h | h
    · exact hy h
    · exact c.genT_ne_zero h

/-- **C93**, honest ciphertexts are those on which all keys agree: for a ciphertext with one component for each label, without repetition of labels, it is an
encryption of `msg` if and only if every generated key satisfied by the labels obtains `msg`. -/
theorem C93_agreement (c : Curve K P Q QP T) (hP : ∀ x : P, ∃ k : K, x = k • c.genP) {size : Nat} {rnd : Nat → K} {y : K} (hy : y ≠ 0) {mk : MasterKey K P Q T}
    (hmk : generateMasterKey (bls c) size rnd y = .ok mk) (ct : CipherText P T) (hnd : ct.gamma.Nodup) (hlen : ct.eI.length = ct.gamma.length)
    (hsize : ct.gamma.length < size) (hin : ∀ a ∈ ct.gamma, a.toNat < size) (hne : ct.gamma ≠ []) (msg : T) :
    (∃ s, encrypt (bls c) t msg ct.gamma mk.pubKey s = .ok ct) ↔
      ∀ (F : Node) (msp : Msp Int), F.toMsp = .ok msp → F.Sat (· ∈ ct.gamma) → (∀ a ∈ F.leaves, a.toNat < size) →
        ∀ (rnd' : Nat → K) (key : DecryptionKey K QP Q), keyGeneration (bls c) msp mk.privKey rnd' = .ok key → decrypt (bls c) ct key = .ok (some msg) := by
  obtain ⟨tI, htl, hnz, rfl⟩ := generateMasterKey_inv c hmk
  dsimp only
  have hnz' : ∀ a : UInt32, a.toNat < size → tOf tI a ≠ 0 := fun a ha => tOf_ne_zero hnz (by omega)
  constructor
  · rintro ⟨s, hs⟩ F msp hF hsat hcov rnd' key hkey
    rw [encrypt_ok c t tI y s msg ct.gamma (by omega) (fun a ha => by rw [htl]; exact hin a ha), Res.ok.injEq] at hs
    rcases toMsp_spec F with ⟨_, m, hm, hmf⟩ | ⟨_, hm⟩
    · obtain rfl : m = msp := by rw [hF] at hm; simpa using hm.symm
      have hcov' : Covers tI F := fun a ha => ⟨by rw [htl]; exact hcov a ha, hnz' a (hcov a ha)⟩
      obtain ⟨lam, h1, h2⟩ := keyGeneration_shares c hmf tI y rnd' hcov'
      obtain rfl : keyOf c tI m lam = key := by rw [hkey] at h1; simpa using h1.symm
      have := (decrypt_keyOf c hmf tI hcov' lam h2 y s msg ct.gamma).2.2 hsat
      rw [hs, add_sub_cancel_right] at this
      exact this
    · rw [hF] at hm; cases hm
  · intro hall
    have hone : ∀ (j : Nat) (a : UInt32), ct.gamma[j]? = some a → ∃ s, ct.eI[j]? = some ((s * tOf tI a) • c.genP) ∧ msg + (s * y) • c.genT = ct.ePrime := by
      intro j a hj
      have hjl : j < ct.gamma.length := (List.getElem?_eq_some_iff.1 hj).1
      have ha : a ∈ ct.gamma := List.mem_of_getElem? hj
      have hta := hnz' a (hin a ha)
      obtain ⟨k, hk⟩ := hP (ct.eI[j]'(by omega))
      have hej : ct.eI[j]? = some ((k / tOf tI a * tOf tI a) • c.genP) := by
        rw [List.getElem?_eq_getElem (by omega), hk, div_mul_cancel₀ _ hta]
      refine ⟨k / tOf tI a, hej, ?_⟩
      set s := k / tOf tI a
      obtain ⟨m, hm, hmf⟩ : ∃ m, (Node.leaf a).toMsp = .ok m ∧ MspFor (Node.leaf a) m := by
        rcases toMsp_spec (.leaf a) with ⟨_, h⟩ | ⟨h, _⟩
        · exact h
        · simp [Node.leaves] at h
      have hcov' : Covers tI (.leaf a) := by
        intro x hx
        simp only [Node.leaves, List.mem_singleton] at hx
        subst hx
        exact ⟨by rw [htl]; exact hin x ha, hta⟩
      obtain ⟨lam, h1, h2⟩ := keyGeneration_shares c hmf tI y (fun _ => 0) hcov'
      have hd := hall (.leaf a) m hm ha (by intro x hx; simp only [Node.leaves, List.mem_singleton] at hx; subst hx; exact hin x ha) _ _ h1
      have hh := (decrypt_keyOf c hmf tI hcov' lam h2 y s (ct.ePrime - (s * y) • c.genT) ct.gamma).2.2 ha
      rw [sub_add_cancel] at hh
      have heq : decrypt (bls c) ct (keyOf c tI m lam) = decrypt (bls c) (ctOf c tI y s (ct.ePrime - (s * y) • c.genT) ct.gamma) (keyOf c tI m lam) := by
        refine decrypt_congr c _ _ _ rfl (by simp [ctOf]) fun i b hb hrow => ?_
        have := getRow_mem hmf c tI lam hrow
        simp only [Node.leaves, List.mem_singleton] at this
        subst this
        obtain rfl : i = j := by
          obtain ⟨h3, h4⟩ := List.getElem?_eq_some_iff.1 hb
          obtain ⟨h5, h6⟩ := List.getElem?_eq_some_iff.1 hj
          exact (List.Nodup.getElem_inj_iff hnd).1 (h4.trans h6.symm)
        rw [hej]
        simp [ctOf, hj]
      rw [heq, hh] at hd
      have : ct.ePrime - (s * y) • c.genT = msg := by simpa using hd
      rw [← this, sub_add_cancel]
    obtain ⟨a0, g', hg'⟩ := List.exists_cons_of_ne_nil hne
    obtain ⟨s, _, hs⟩ := hone 0 a0 (by rw [hg']; rfl)
    refine ⟨s, ?_⟩
    rw [encrypt_ok c t tI y s msg ct.gamma (by omega) (fun a ha => by rw [htl]; exact hin a ha), Res.ok.injEq]
    have heI : ct.eI = ct.gamma.map fun a => (s * tOf tI a) • c.genP := by
      refine List.ext_getElem? fun j => ?_
      rw [List.getElem?_map]
      cases hj : ct.gamma[j]? with
      | none =>
        rw [Option.map_none, List.getElem?_eq_none_iff, hlen]
        exact List.getElem?_eq_none_iff.1 hj
      | some a =>
        obtain ⟨s', h1, h2⟩ := hone j a hj
        have : (s' * y) • c.genT = (s * y) • c.genT := add_left_cancel (h2.trans hs.symm)
        have hss : s' = s := by
          have h3 : (s' * y - s * y) • c.genT = 0 := by rw [sub_smul, this, sub_self]
          rcases smul_eq_zero.1 h3 with h | h
          · exact mul_right_cancel₀ hy (sub_eq_zero.1 h)
          · exact absurd h c.genT_ne_zero
        rw [h1, hss, Option.map_some]
    cases ct
    simp only [ctOf] at *
    simp only [CipherText.mk.injEq, true_and]
    exact ⟨hs, heI.symm⟩

namespace Demo

theorem dpt_grants {a b : Attribute} (ha : a = hr ∨ a = mkg) (h : (AccessPolicy.attr a).Grants policy b) : b = a := by
  obtain ⟨below, above, hier, h1, _, h2, h3⟩ := h
  have hx : hget policy.axes a.axis = some (["RnD", "HR", "MKG"], false) := by rcases ha with rfl | rfl <;> decide +kernel
  rw [hx] at h1
  simp only [Option.some.injEq, Prod.mk.injEq] at h1
  rw [← h1.2] at h3
  simp only [Bool.false_eq_true, false_and, or_false] at h3
  cases a; cases b
  simp_all

/-- A header for `HR` and `MKG` in which the two components have the scalars 7 and 2: the keys for the two departments read different things. -/
example : ∃ key₁ key₂ b k₁ k₂, UserKey curveF policy mkF (.attr hr) key₁ ∧ UserKey curveF policy mkF (.attr mkg) key₂ ∧
    mixedHeader (bls curveF) codecs .debug64 mkF.pubKey (5 + (7 : F) • mkF.pubKey.y) [(4, 7), (5, 2)] = .ok b ∧
    decryptHybridHeader symmetric (bls curveF) codecs .release64 key₁ b = .ok ⟨k₁, ⟨[], none⟩⟩ ∧
    decryptHybridHeader symmetric (bls curveF) codecs .release64 key₂ b = .ok ⟨k₂, ⟨[], none⟩⟩ := by
  obtain ⟨key₁, h1⟩ : ∃ key, engineGenerateUserKey (bls curveF) policy mkF.privKey (.attr hr) drawsF = .ok key := exists_of_isOk (by decide +kernel)
  obtain ⟨key₂, h2⟩ : ∃ key, engineGenerateUserKey (bls curveF) policy mkF.privKey (.attr mkg) drawsF = .ok key := exists_of_isOk (by decide +kernel)
  have hv₁ : policy.HasValue hr 4 := ⟨[4], by decide +kernel, by simp⟩
  have hv₂ : policy.HasValue mkg 5 := ⟨[5], by decide +kernel, by simp⟩
  obtain ⟨b, _, _, k₁, k₂, g1, _, _, g2, _, _, g3, _⟩ := C93_equivocation_refuted (t := .debug64) (t' := .release64) curveF codecs_lawful symmetric_lawful
    (reachable_wf policy_reachable) (by decide) mkF_eq (by decide) (.generate _ h1) (.generate _ h2) hv₁ hv₂ (by decide) (by decide)
    ⟨hr, ⟨["RnD"], ["MKG"], false, by decide +kernel, by decide +kernel, rfl, Or.inl rfl⟩, rfl⟩
    ⟨mkg, ⟨["RnD", "HR"], [], false, by decide +kernel, by decide +kernel, rfl, Or.inl rfl⟩, rfl⟩
    (fun b hb => by
      rw [dpt_grants (.inl rfl) hb]
      rintro ⟨heap, e1, e2⟩
      rw [show hget policy.attributeToInt hr = some [4] by decide +kernel] at e1
      cases e1
      simp at e2)
    (fun b hb => by
      rw [dpt_grants (.inr rfl) hb]
      rintro ⟨heap, e1, e2⟩
      rw [show hget policy.attributeToInt mkg = some [5] by decide +kernel] at e1
      cases e1
      simp at e2) (5 : F) (show (7 : F) ≠ 2 by decide)
  exact ⟨key₁, key₂, b, k₁, k₂, .generate _ h1, .generate _ h2, g1, g2, g3⟩

/-- A ciphertext that is no encryption: some key does not obtain the expected message. -/
example : ∃ ct, mixed (bls curveF) mkF.pubKey (5 + (7 : F) • mkF.pubKey.y) [(4, 7), (5, 2)] = .ok ct ∧
    ¬ ∀ (F : Node) (msp : Msp Int), F.toMsp = .ok msp → F.Sat (· ∈ ct.gamma) → (∀ a ∈ F.leaves, a.toNat < 8) →
      ∀ (rnd' : Nat → Demo.F) (key : DecryptionKey Demo.F Demo.F Demo.F), keyGeneration (bls curveF) msp mkF.privKey rnd' = .ok key →
        decrypt (bls curveF) ct key = .ok (some 5) := by
  have hct : mixed (bls curveF) mkF.pubKey (5 + (7 : F) • mkF.pubKey.y) [(4, 7), (5, 2)] = .ok ⟨[4, 5], 4, [9, 3]⟩ := by decide +kernel
  refine ⟨_, hct, fun h => ?_⟩
  have hmk : generateMasterKey (bls curveF) 8 drawsF 3 = .ok mkF := mkF_eq
  obtain ⟨s, hs⟩ := (C93_agreement (t := .release64) curveF (fun x => ⟨x, (mul_one x).symm⟩) (by decide) hmk ⟨[4, 5], 4, [9, 3]⟩ (by decide) rfl (by decide)
    (fun a ha => by fin_cases ha <;> decide) (by simp) 5).2 h
  have hno : ∀ s : F, encrypt (bls curveF) .release64 5 [4, 5] mkF.pubKey s ≠ .ok ⟨[4, 5], 4, [9, 3]⟩ := by decide +kernel
  exact hno s hs

end Demo

end Abe
