import Verif.Spec.Chosen
import Verif.Props.HybridGame
import Verif.Props.Algebra
import Verif.Props.DemoLib

/-!
# Headers modified by a third party

Property C90: whoever has the public key can turn an encrypted header into another one for the same symmetric key and metadata.
-/

namespace Abe

set_option linter.unusedSectionVars false

variable {K P Q QP T Key Nonce : Type} [Field K] [DecidableEq K] [AddCommGroup P] [Module K P] [AddCommGroup Q] [Module K Q]
  [AddCommGroup T] [Module K T]
variable {e : External Key Nonce} {cs : Codecs K P Q T} {t t' : Target} {tag : Nat}
variable {p : Policy} {rnd : Nat → K} {y : K} {mk : MasterKey K P Q T} {atts atts' : List Attribute}
  {md : Option Metadata} {random : T} {s s' : K} {nonce : Nonce} {h : EncryptedHeader Key}

/-- The encapsulation of a ciphertext exists. -/
theorem capsule_enc (c : Curve K P Q QP T) (hcs : cs.Lawful) (hw : p.WF) (hmk : engineGenerateMasterKey (bls c) p rnd y = .ok mk) {enc : CipherText P T}
    (henc : engineEncrypt (bls c) t p mk.pubKey atts random s = .ok enc) (h0 : atts ≠ []) :
    ∃ ek, (cipherTextCodec t cs).enc enc = .ok ek ∧ ek.length = ciphertextLen atts.length := by
  obtain ⟨tI, hlen, hnz, rfl⟩ := generateMasterKey_inv c hmk
  obtain ⟨vs, hv, _, _, hl, hlt, _, rfl⟩ := engineEncrypt_inv c hw henc
  have henc' : encrypt (bls c) t random vs (pubOf c tI y) s = .ok (ctOf c tI y s random vs) := by
    unfold engineEncrypt at henc
    rw [hv, Res.ok_bind] at henc
    exact henc
  have hmax : tI.length < 2 ^ 32 := by rw [hlen]; exact UInt32.toNat_lt _
  have hvs : vs ≠ [] := by
    rintro rfl
    exact h0 (List.length_eq_zero_iff.1 hl.symm)
  obtain ⟨b, g1, g2, _⟩ := C30_ciphertext_len (t := t) hcs (bls c) henc' hvs (by omega)
  rw [hl] at g2
  exact ⟨b, g1, g2⟩

/-- A change of the ciphertext of a header to another ciphertext of the same message gives the header that encryption would have given. -/
theorem remake_spec (c : Curve K P Q QP T) (hcs : cs.Lawful) (hw : p.WF) (hmk : engineGenerateMasterKey (bls c) p rnd y = .ok mk)
    (h0 : atts ≠ []) (h0' : atts' ≠ []) (hle : atts'.length ≤ atts.length) (ht : 32 ≤ t'.bits)
    (henc : encryptHybridHeader e (bls c) cs t p mk.pubKey atts md random s nonce = .ok h)
    {f : CipherText P T → Out (CipherText P T)} {enc' : CipherText P T} (henc' : engineEncrypt (bls c) t p mk.pubKey atts' random s' = .ok enc')
    (hf : ∀ enc, engineEncrypt (bls c) t p mk.pubKey atts random s = .ok enc → f enc = .ok enc') :
    ∃ b, remake cs t' f h.encryptedHeaderBytes = .ok b ∧
      encryptHybridHeader e (bls c) cs t p mk.pubKey atts' md random s' nonce = .ok ⟨h.symmetricKey, b⟩ := by
  obtain ⟨kb, ek, hg, hk, hl, hcase⟩ := encryptHybridHeader_inv henc
  obtain ⟨enc, gb, h1, h2, h3, h4⟩ := generateSymmetricKey_inv hg
  dsimp only at h2 h4
  obtain ⟨hd, hlen⟩ := (capsule (t' := t') c hcs hw hmk h1 h2).1 h0
  have hd := hd (fits32 ht hl)
  obtain ⟨ek', g1, g2⟩ := capsule_enc (cs := cs) c hcs hw hmk henc' h0'
  have hl' : ek'.length < 2 ^ 32 := by
    rw [g2]
    rw [hlen] at hl
    simp only [ciphertextLen] at hl ⊢
    omega
  have hgen : generateSymmetricKey e (bls c) cs t p mk.pubKey atts' e.keyLen random s' = .ok (kb, ek') := by
    unfold generateSymmetricKey
    rw [henc', Res.ok_bind, g1, Res.ok_bind, h3, Res.ok_bind, h4]
  have hrem : ∀ r, remake cs t' f (be32 ek.length.toUInt32 ++ ek ++ r) = .ok (be32 ek'.length.toUInt32 ++ ek' ++ r) := by
    intro r
    unfold remake
    rw [List.append_assoc, scanU32_append, Res.ok_bind]
    dsimp only
    rw [scanNext_append' (toNat_toUInt32 hl).symm, Res.ok_bind]
    dsimp only
    rw [hd, Res.ok_bind, hf enc h1, Res.ok_bind, cipherText_enc_target (t' := t), g1, Res.ok_bind, u32Len_ok hl', Res.ok_bind]
  unfold encryptHybridHeader
  rw [hgen, Res.ok_bind]
  dsimp only
  rw [hk, Res.ok_bind, u32Len_ok hl', Res.ok_bind]
  rcases hcase with ⟨rfl, hb⟩ | ⟨m, mb, em, rfl, hm, hem, hel, hb⟩
  · have := hrem []
    rw [List.append_nil, List.append_nil] at this
    exact ⟨_, by rw [hb, this], rfl⟩
  · refine ⟨_, by rw [hb, hrem], ?_⟩
    dsimp only
    rw [hm, Res.ok_bind, hem, Res.ok_bind, u32Len_ok hel, Res.ok_bind]
    simp [List.append_assoc]

theorem genP_ne_zero (c : Curve K P Q QP T) : c.genP ≠ 0 := by
  intro hz
  apply c.genT_ne_zero
  rw [c.genT_eq, hz, map_zero, LinearMap.zero_apply]

/-- **C90**, refreshed headers: with the public key, a header, and a scalar `r`, anyone makes the header that encryption with the scalar `s + r` in place of `s` would
have made: for the same attributes, symmetric key and metadata.  If `r` is not 0 its bytes are different. -/
theorem C90_refreshed (c : Curve K P Q QP T) (hcs : cs.Lawful) (hw : p.WF) (hmk : engineGenerateMasterKey (bls c) p rnd y = .ok mk)
    (h0 : atts ≠ []) (ht : 32 ≤ t'.bits) (henc : encryptHybridHeader e (bls c) cs t p mk.pubKey atts md random s nonce = .ok h) (r : K) :
    ∃ b, remake cs t' (refresh c t' mk.pubKey r) h.encryptedHeaderBytes = .ok b ∧
      encryptHybridHeader e (bls c) cs t p mk.pubKey atts md random (s + r) nonce = .ok ⟨h.symmetricKey, b⟩ ∧
      (r ≠ 0 → b ≠ h.encryptedHeaderBytes) := by
  obtain ⟨kb, ek, hg, hk, hl, hcase⟩ := encryptHybridHeader_inv henc
  obtain ⟨enc, gb, h1, h2, h3, h4⟩ := generateSymmetricKey_inv hg
  have hmk0 := hmk
  obtain ⟨tI, hlen, hnz, rfl⟩ := generateMasterKey_inv c hmk
  obtain ⟨vs, hv, _, _, hvl, hlt, hr, hct⟩ := engineEncrypt_inv c hw h1
  have hplus : engineEncrypt (bls c) t p (pubOf c tI y) atts random (s + r) = .ok (ctOf c tI y (s + r) random vs) := by
    unfold engineEncrypt
    rw [hv, Res.ok_bind]
    exact encrypt_ok c t tI y (s + r) random vs hlt hr
  have hf : ∀ enc, engineEncrypt (bls c) t p (pubOf c tI y) atts random s = .ok enc →
      refresh c t' (pubOf c tI y) r enc = .ok (ctOf c tI y (s + r) random vs) := by
    intro enc' h1'
    rw [h1] at h1'
    obtain rfl : enc = enc' := by simpa using h1'
    subst hct
    unfold refresh
    rw [show (ctOf c tI y s random vs).gamma = vs from rfl, encrypt_ok c t' tI y r 0 vs hlt hr, Res.ok_bind]
    simp only [ctOf, Res.ok.injEq, CipherText.mk.injEq, true_and]
    constructor
    · rw [add_mul, add_smul]; abel
    · rw [List.zipWith_map, List.zipWith_self]
      refine List.map_congr_left fun a _ => ?_
      rw [add_mul, add_smul]
  obtain ⟨b, hb1, hb2⟩ := remake_spec (t' := t') (e := e) c hcs hw hmk0 h0 h0 (le_refl _) ht henc hplus hf
  refine ⟨b, hb1, hb2, ?_⟩
  intro hr0 heq
  obtain ⟨kb', ek', hg', hk', hl', hcase'⟩ := encryptHybridHeader_inv hb2
  obtain ⟨enc', gb', h1', h2', _, _⟩ := generateSymmetricKey_inv hg'
  have hd := ((capsule (t' := t') c hcs hw hmk0 h1 h2).1 h0).1 (fits32 ht hl)
  have hd' := ((capsule (t' := t') c hcs hw hmk0 h1' h2').1 h0).1 (fits32 ht hl')
  have hsame : ek = ek' := by
    have e1 : ek.length = ek'.length := by
      rw [((capsule (t' := t') c hcs hw hmk0 h1 h2).1 h0).2, ((capsule (t' := t') c hcs hw hmk0 h1' h2').1 h0).2]
    have q1 : ∃ x, h.encryptedHeaderBytes = be32 ek.length.toUInt32 ++ (ek ++ x) := by
      rcases hcase with ⟨_, hb⟩ | ⟨_, _, _, _, _, _, _, hb⟩
      · exact ⟨[], by rw [hb, List.append_nil]⟩
      · exact ⟨_, by rw [hb, List.append_assoc]⟩
    have q2 : ∃ x, b = be32 ek'.length.toUInt32 ++ (ek' ++ x) := by
      rcases hcase' with ⟨_, hb⟩ | ⟨_, _, _, _, _, _, _, hb⟩
      · exact ⟨[], by rw [List.append_nil]; exact hb⟩
      · exact ⟨_, by rw [← List.append_assoc]; exact hb⟩
    obtain ⟨x, q1⟩ := q1
    obtain ⟨x', q2⟩ := q2
    rw [q1, q2, e1] at heq
    exact (List.append_inj (List.append_cancel_left heq) e1.symm).1.symm
  rw [hplus] at h1'
  obtain rfl : ctOf c tI y (s + r) random vs = enc' := by simpa using h1'
  dsimp only at hd hd'
  rw [← hsame, hd, hct] at hd'
  have hmap : (ctOf c tI y s random vs).eI = (ctOf c tI y (s + r) random vs).eI := by rw [Res.ok.inj hd']
  simp only [ctOf] at hmap
  obtain ⟨v, hvm⟩ : ∃ v, v ∈ vs := by
    cases vs with
    | nil => exact absurd (List.length_eq_zero_iff.1 hvl.symm) h0
    | cons v _ => exact ⟨v, by simp⟩
  have hv2 := List.map_inj_left.1 hmap v hvm
  have : (r * tOf tI v) • c.genP = 0 := by
    rw [add_mul, add_smul] at hv2
    exact (left_eq_add.1 hv2)
  rcases smul_eq_zero.1 this with h6 | h6
  · rcases mul_eq_zero.1 h6 with h7 | h7
    · exact hr0 h7
    · exact absurd h7 (tOf_ne_zero hnz (hr v hvm))
  · exact genP_ne_zero c h6

/-- **C90**, the keys that open the header open the refreshed one, to the same symmetric key and metadata. -/
theorem C90_refreshed_opens (c : Curve K P Q QP T) (hcs : cs.Lawful) (he : e.Lawful tag) (hw : p.WF)
    (hmk : engineGenerateMasterKey (bls c) p rnd y = .ok mk) (ht : 32 ≤ t'.bits) {ap : AccessPolicy} {key : DecryptionKey K QP Q} (hkey : UserKey c p mk ap key)
    (hmeta : ∀ m ∈ md, e.Keeps m) (henc : encryptHybridHeader e (bls c) cs t p mk.pubKey atts md random s nonce = .ok h) (hsat : ap.Sat p (· ∈ atts)) (r : K) :
    ∃ b, remake cs t' (refresh c t' mk.pubKey r) h.encryptedHeaderBytes = .ok b ∧
      decryptHybridHeader e (bls c) cs t' key b = .ok ⟨h.symmetricKey, md.getD ⟨[], none⟩⟩ ∧
      decryptHybridHeader e (bls c) cs t' key h.encryptedHeaderBytes = decryptHybridHeader e (bls c) cs t' key b := by
  have h0 : atts ≠ [] := by
    obtain ⟨kb, ek, hg, _⟩ := encryptHybridHeader_inv henc
    obtain ⟨enc, gb, h1, _⟩ := generateSymmetricKey_inv hg
    exact authorised_nonempty c hw hmk hkey h1 hsat
  obtain ⟨b, h1, h2, _⟩ := C90_refreshed (t' := t') c hcs hw hmk h0 ht henc r
  have g := C35_header_round_trip c ht hcs he hw hmk hkey hmeta h2 hsat
  refine ⟨b, h1, g, ?_⟩
  rw [C35_header_round_trip c ht hcs he hw hmk hkey hmeta henc hsat]
  exact g.symm

/-- **C90**, refreshed headers cannot be linked: with a random scalar, the refreshed header has the distribution of a header freshly encrypted for the same
attributes, encapsulated element, metadata and nonce; the scalar of the original has no influence. -/
theorem C90_unlinkable [Fintype K] (c : Curve K P Q QP T) (hcs : cs.Lawful) (hw : p.WF) (hmk : engineGenerateMasterKey (bls c) p rnd y = .ok mk)
    (h0 : atts ≠ []) (ht : 32 ≤ t'.bits) (henc : encryptHybridHeader e (bls c) cs t p mk.pubKey atts md random s nonce = .ok h) :
    (PMF.uniformOfFintype K).map (fun r => (remake cs t' (refresh c t' mk.pubKey r) h.encryptedHeaderBytes).toOption) =
      (PMF.uniformOfFintype K).map (fun x => (encryptHybridHeader e (bls c) cs t p mk.pubKey atts md random x nonce).toOption.map
        fun h => h.encryptedHeaderBytes) := by
  have : (fun r => (remake cs t' (refresh c t' mk.pubKey r) h.encryptedHeaderBytes).toOption) =
      fun r => (fun x => (encryptHybridHeader e (bls c) cs t p mk.pubKey atts md random x nonce).toOption.map fun h => h.encryptedHeaderBytes) (Equiv.addLeft s r) := by
    funext r
    obtain ⟨b, h1, h2, _⟩ := C90_refreshed (t' := t') c hcs hw hmk h0 ht henc r
    simp only [Equiv.coe_addLeft, h1, h2, Res.toOption_ok, Option.map_some]
  rw [this]
  simp only [← PMF.bind_pure_comp, Function.comp_def]
  exact uniform_bind_equiv (Equiv.addLeft s) (fun x => PMF.pure ((encryptHybridHeader e (bls c) cs t p mk.pubKey atts md random x nonce).toOption.map
    fun h => h.encryptedHeaderBytes))

theorem forall₂_eraseIdx {α β : Type} {R : α → β → Prop} {l : List α} {l' : List β} (h : List.Forall₂ R l l') (i : Nat) :
    List.Forall₂ R (l.eraseIdx i) (l'.eraseIdx i) := by
  induction h generalizing i with
  | nil => exact .nil
  | cons h1 h2 ih =>
    cases i with
    | zero => exact h2
    | succ i => exact .cons h1 (ih i)

/-- **C90**, narrowed headers: anyone removes an attribute from a header, which gives the header that encryption for the remaining attributes would have given: it
still opens to the same symmetric key and metadata, but not any more for the keys that needed the removed attribute. -/
theorem C90_narrowed (c : Curve K P Q QP T) (hcs : cs.Lawful) (he : e.Lawful tag) (hw : p.WF) (hmk : engineGenerateMasterKey (bls c) p rnd y = .ok mk)
    (ht : 32 ≤ t'.bits) (hmeta : ∀ m ∈ md, e.Keeps m) (henc : encryptHybridHeader e (bls c) cs t p mk.pubKey atts md random s nonce = .ok h) (i : Nat) (h0 : atts.eraseIdx i ≠ []) :
    ∃ b, remake cs t' (narrow i) h.encryptedHeaderBytes = .ok b ∧
      encryptHybridHeader e (bls c) cs t p mk.pubKey (atts.eraseIdx i) md random s nonce = .ok ⟨h.symmetricKey, b⟩ ∧
      ∀ {ap : AccessPolicy} {key : DecryptionKey K QP Q}, UserKey c p mk ap key →
        (ap.Sat p (· ∈ atts.eraseIdx i) → decryptHybridHeader e (bls c) cs t' key b = .ok ⟨h.symmetricKey, md.getD ⟨[], none⟩⟩) ∧
        (¬ ap.Sat p (· ∈ atts.eraseIdx i) → (decryptHybridHeader e (bls c) cs t' key b).isErr) := by
  have hne : atts ≠ [] := by
    rintro rfl
    simp at h0
  have hle : (atts.eraseIdx i).length ≤ atts.length := (List.eraseIdx_sublist atts i).length_le
  obtain ⟨kb, ek, hg, hk, hl, hcase⟩ := encryptHybridHeader_inv henc
  obtain ⟨enc, gb, h1, h2, h3, h4⟩ := generateSymmetricKey_inv hg
  have hmk0 := hmk
  obtain ⟨tI, hlen, hnz, rfl⟩ := generateMasterKey_inv c hmk
  obtain ⟨vs, hv, _, _, hvl, hlt, hr, hct⟩ := engineEncrypt_inv c hw h1
  have hvle : (vs.eraseIdx i).length ≤ vs.length := (List.eraseIdx_sublist vs i).length_le
  have hv' : p.attributesValues (atts.eraseIdx i) = .ok (vs.eraseIdx i) := mapRes_eq_ok.2 (forall₂_eraseIdx (mapRes_eq_ok.1 hv) i)
  have hless : engineEncrypt (bls c) t p (pubOf c tI y) (atts.eraseIdx i) random s = .ok (ctOf c tI y s random (vs.eraseIdx i)) := by
    unfold engineEncrypt
    rw [hv', Res.ok_bind]
    exact encrypt_ok c t tI y s random _ (by omega) fun a ha => hr a ((List.eraseIdx_sublist vs i).mem ha)
  suffices hmain : ∃ b, remake cs t' (narrow i) h.encryptedHeaderBytes = .ok b ∧
      encryptHybridHeader e (bls c) cs t p (pubOf c tI y) (atts.eraseIdx i) md random s nonce = .ok ⟨h.symmetricKey, b⟩ by
    obtain ⟨b, hb1, hb2⟩ := hmain
    exact ⟨b, hb1, hb2, fun hkey => ⟨fun hsat => C35_header_round_trip c ht hcs he hw hmk0 hkey hmeta hb2 hsat,
      fun hsat => (C39_unauthorised c ht hcs hw hmk0 hkey hb2 hsat).2 h0⟩⟩
  refine remake_spec (t' := t') (e := e) c hcs hw hmk0 hne h0 hle ht henc hless fun enc' h1' => ?_
  rw [h1] at h1'
  obtain rfl : enc = enc' := by simpa using h1'
  subst hct
  simp only [narrow, ctOf, List.eraseIdx_map]

/-- The attacker who refreshes the challenge and has the result opened. -/
def refresher (c : Curve K P Q QP T) (cs : Codecs K P Q T) (t : Target) (p : Policy) (ap : AccessPolicy) (m0 m1 : Metadata) (pub : MasterPublicKey P T) :
    OpeningAttacker K Q QP Key :=
  .challenge m0 m1 fun r =>
    match r with
    | none => .guess false
    | some header =>
      match remake cs t (refresh c t pub 1) header with
      | .ok b => .opened p ap b fun o => .guess (match o with | some h => decide (h.metaData = m1) | none => false)
      | _ => .guess false

/-- It asks for no key. -/
theorem refresher_fair (c : Curve K P Q QP T) (cs : Codecs K P Q T) (t : Target) (hp : p.Reachable) (ap : AccessPolicy) (m0 m1 : Metadata) (pub : MasterPublicKey P T)
    (gamma : List UInt32) : (refresher (Key := Key) c cs t p ap m0 m1 pub).Fair gamma := by
  intro r
  cases r with
  | none => trivial
  | some header =>
    dsimp only
    split
    · exact ⟨hp, fun _ => trivial⟩
    · trivial

/-- **C90**, no security against attackers who have other headers opened: with no key at all, the attacker wins in every run with a master key. -/
theorem C90_chosen_ciphertext [Fintype K] [Fintype Nonce] [Nonempty Nonce] (he : e.Lawful tag) (c : Curve K P Q QP T)
    (hcs : cs.Lawful) (ht : 32 ≤ t.bits) (hw : p.WF) {rnd : Fin p.maxAttributeCreations.toNat → K}
    (hmk : engineGenerateMasterKey (bls c) p (pad rnd) y = .ok mk)
    {ap : AccessPolicy} (hv : ap.Valid p) (hr : ∀ b v, ap.Grants p b → p.HasValue b v → v.toNat < p.maxAttributeCreations.toNat)
    (hsat : ap.Sat p (· ∈ atts)) {x : K} (henc : ∃ ct, engineEncrypt (bls c) t p mk.pubKey atts (x • c.genT) s = .ok ct)
    (hlen : ciphertextLen atts.length < 2 ^ 32) {m0 m1 : Metadata} (hm : m0 ≠ m1) (hk0 : e.Keeps m0) (hk1 : e.Keeps m1)
    (hmeta : ∀ m, m = m0 ∨ m = m1 → ∃ mb, e.metaEnc m = .ok mb ∧ mb.length + tag < 2 ^ 32 ∧ ∀ k nonce, ∃ em, e.encrypt k mb nonce none = .ok em) (b : Bool) :
    openingRun e c cs t p.maxAttributeCreations.toNat p atts (fun pub _ => refresher c cs t p ap m0 m1 pub) s y b rnd x = .pure true := by
  have hmk' : generateMasterKey (bls c) p.maxAttributeCreations.toNat (pad rnd) y = .ok mk := hmk
  obtain ⟨ct, henc⟩ := henc
  unfold openingRun
  rw [hmk']
  dsimp only
  unfold refresher
  simp only [OpeningAttacker.exec, PMF.map_bind, PMF.bind_map]
  refine bind_const' fun ν => ?_
  simp only [Function.comp]
  obtain ⟨tI, htl, hnz, rfl⟩ := generateMasterKey_inv c hmk'
  have hmm : (if b then m1 else m0) = m0 ∨ (if b then m1 else m0) = m1 := by cases b <;> simp
  obtain ⟨mb, g1, g2, g3⟩ := hmeta _ hmm
  have hkeeps : e.Keeps (if b then m1 else m0) := by cases b <;> assumption
  obtain ⟨h, hh⟩ := C35_header_encrypts (md := some (if b then m1 else m0)) (nonce := ν) c hcs he hw hmk henc hlen
    (by rintro m' ⟨⟩; exact ⟨mb, g1, g2, fun k => g3 k _⟩)
  have h0 : atts ≠ [] := by
    obtain ⟨key, hkey⟩ := (C07_key_generation_success c hw hnz y ap (fun _ => 0)).1 ⟨hv, by rw [htl]; exact hr⟩
    exact authorised_nonempty (mk := ⟨⟨tI, y⟩, pubOf c tI y, delOf c tI⟩) c hw hmk (.generate _ hkey) henc hsat
  obtain ⟨b', hb1, hb2, hb3⟩ := C90_refreshed (t' := t) c hcs hw hmk h0 ht hh 1
  dsimp only at hh hb1
  simp only [hh, Res.toOption_ok, Option.map_some, hb1, OpeningAttacker.exec]
  rw [if_neg (by simpa using (hb3 one_ne_zero).symm), PMF.map_bind, userKeys, PMF.bind_map]
  refine bind_const' fun r => ?_
  obtain ⟨key, hkey⟩ := (C07_key_generation_success c hw hnz y ap (pad r)).1 ⟨hv, by rw [htl]; exact hr⟩
  have huk : UserKey c p ⟨⟨tI, y⟩, pubOf c tI y, delOf c tI⟩ ap key := .generate _ hkey
  have hopen := C35_header_round_trip c ht hcs he hw hmk huk (by rintro m' ⟨⟩; exact hkeeps) hb2 hsat
  simp only [Function.comp, hkey, Res.toOption_ok, Option.bind_some, hopen, PMF.pure_map, Option.getD_some]
  congr 1
  cases b
  · simpa using hm
  · simp

namespace Demo

/-- The header of the demo refreshed with the scalar 3: other bytes, the same symmetric key and metadata. -/
example : ∃ key h b, UserKey curveF policy mkF ap key ∧
    encryptHybridHeader symmetric (bls curveF) codecs .debug64 policy mkF.pubKey [low, hr] (some metadata) 5 7 Demo.nonce = .ok h ∧
    remake codecs .release64 (refresh curveF .release64 mkF.pubKey 3) h.encryptedHeaderBytes = .ok b ∧ b ≠ h.encryptedHeaderBytes ∧
    decryptHybridHeader symmetric (bls curveF) codecs .release64 key b = .ok ⟨h.symmetricKey, metadata⟩ := by
  obtain ⟨key, hkey⟩ := keyF_exists
  obtain ⟨h, hh⟩ := header_exists
  have hw := reachable_wf policy_reachable
  obtain ⟨b, h1, _, h3⟩ := C90_refreshed (t' := .release64) curveF codecs_lawful hw mkF_eq (by simp) (by decide) hh 3
  obtain ⟨b', g1, g2, _⟩ := C90_refreshed_opens (t' := .release64) curveF codecs_lawful symmetric_lawful hw mkF_eq (by decide) (.generate _ hkey)
    (by rintro m ⟨⟩; exact metadata_kept) hh ap_sat 3
  obtain rfl : b = b' := by rw [h1] at g1; simpa using g1
  exact ⟨key, h, b, .generate _ hkey, hh, h1, h3 (by decide), g2⟩

/-- Refreshed by a random scalar it is like any other header with these attributes, element, metadata and Demo.nonce. -/
example : ∃ h, encryptHybridHeader symmetric (bls curveF) codecs .debug64 policy mkF.pubKey [low, hr] (some metadata) 5 7 Demo.nonce = .ok h ∧
    (PMF.uniformOfFintype F).map (fun r => (remake codecs .release64 (refresh curveF .release64 mkF.pubKey r) h.encryptedHeaderBytes).toOption) =
      (PMF.uniformOfFintype F).map (fun x => (encryptHybridHeader symmetric (bls curveF) codecs .debug64 policy mkF.pubKey [low, hr] (some metadata) 5 x
        Demo.nonce).toOption.map fun h => h.encryptedHeaderBytes) := by
  obtain ⟨h, hh⟩ := header_exists
  exact ⟨h, hh, C90_unlinkable (t' := .release64) curveF codecs_lawful (reachable_wf policy_reachable) mkF_eq (by simp) (by decide) hh⟩

/-- Without `HR` the header of the demo is one for `Low`, and the key for `High && (HR || MKG)` does not open it any more. -/
example : ∃ key h b, UserKey curveF policy mkF ap key ∧ encryptHybridHeader symmetric (bls curveF) codecs .debug64 policy mkF.pubKey [low, hr] (some metadata) 5 7 Demo.nonce = .ok h ∧
    remake codecs .release64 (narrow 1) h.encryptedHeaderBytes = .ok b ∧
    encryptHybridHeader symmetric (bls curveF) codecs .debug64 policy mkF.pubKey [low] (some metadata) 5 7 Demo.nonce = .ok ⟨h.symmetricKey, b⟩ ∧
    (decryptHybridHeader symmetric (bls curveF) codecs .release64 key b).isErr := by
  obtain ⟨key, hkey⟩ := keyF_exists
  obtain ⟨h, hh⟩ := header_exists
  obtain ⟨b, h1, h2, h3⟩ := C90_narrowed (t' := .release64) curveF codecs_lawful symmetric_lawful (reachable_wf policy_reachable) mkF_eq (by decide)
    (by rintro m ⟨⟩; exact metadata_kept) hh 1 (by decide)
  exact ⟨key, h, b, .generate _ hkey, hh, h1, h2, (h3 (.generate _ hkey)).2 ap_not_sat⟩

/-- The attacker who has the refreshed header opened wins, without any key. -/
example (b : Bool) : openingRun symmetric curveF codecs .release64 8 policy [low, hr]
    (fun pub _ => refresher curveF codecs .release64 policy ap metadata ⟨[5, 6, 7, 8], none⟩ pub) 7 3 b (fun _ => 2) 5 = .pure true := by
  obtain ⟨mk, hmk⟩ : ∃ mk, engineGenerateMasterKey (bls curveF) policy (Abe.pad fun _ : Fin policy.maxAttributeCreations.toNat => (2 : F)) 3 = .ok mk :=
    exists_of_isOk (by decide +kernel)
  refine C90_chosen_ciphertext symmetric_lawful curveF codecs_lawful (by decide) (reachable_wf policy_reachable) hmk ap_authorised.1.1 ap_authorised.1.2 ap_sat
    ?_ (by decide) (by decide) metadata_kept ⟨[0, 0, 0, 4, 5, 6, 7, 8], by decide, by decide⟩ ?_ b
  · have : (match engineGenerateMasterKey (bls curveF) policy (Abe.pad fun _ : Fin policy.maxAttributeCreations.toNat => (2 : F)) 3 with
      | .ok mk => (match engineEncrypt (bls curveF) .release64 policy mk.pubKey [low, hr] ((5 : F) • curveF.genT) 7 with | .ok _ => true | _ => false)
      | _ => false) = true := by decide +kernel
    rw [hmk] at this
    dsimp only at this
    revert this
    cases engineEncrypt (bls curveF) .release64 policy mk.pubKey [low, hr] ((5 : F) • curveF.genT) 7 with
    | ok ct => exact fun _ => ⟨ct, rfl⟩
    | err e => simp
    | panic => simp
  · rintro m (rfl | rfl)
    · exact ⟨[0, 0, 0, 4, 1, 2, 3, 4, 9, 8], by decide, by decide, fun k _ => ⟨_, rfl⟩⟩
    · exact ⟨[0, 0, 0, 4, 5, 6, 7, 8], by decide, by decide, fun k _ => ⟨_, rfl⟩⟩

end Demo

end Abe
