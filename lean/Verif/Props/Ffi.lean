import Verif.Props.DemoFfi
import Verif.Props.Py
import Verif.Proofs.FfiMessage

set_option linter.unusedSectionVars false

/-!
# Properties of the C interface, one call at a time: C45 (one call), C46, C47, C49
-/

namespace Abe
open Prog

section
variable {K G1 G2 G3 Gt Key Nonce : Type} [Field K] [DecidableEq K] {lib : FfiLib K G1 G2 G3 Gt Key Nonce}

/-! ### C47 -/

theorem Prog.Const.stop {E D α : Type} {M : Prog E D α} (hM : Const M) (hn : ∀ a, M ≠ pure a) :
    (∃ e, M = fun s => (.ret 1, { s with err := some e })) ∨ M = panicked ∨ M = undefined := by
  rcases hM with ⟨b, rfl⟩ | h
  · exact absurd rfl (hn b)
  · exact h

theorem delivers_or_never {E D : Type} {t : Target} (ht : 31 ≤ t.bits) {k : Slot} {x y : String} {w : Nat → Int32 → Bytes}
    {M : Prog E D Bytes} (hM : Const M) {A : Bytes → Prop} (hA : ∀ b, M = pure b ↔ A b) :
    (∃ b, A b ∧ Delivers t (checkOut k x y >>= fun _ => M >>= fun b => writeOut t k w b >>= fun _ => pure 0) k b) ∨
      ((∀ b, ¬ A b) ∧ NeverWrites (checkOut k x y >>= fun _ => M >>= fun b => writeOut t k w b >>= fun _ => pure 0)) := by
  by_cases h : ∃ b, M = pure b
  · obtain ⟨b, rfl⟩ := h
    exact .inl ⟨b, (hA b).1 rfl, delivers_of_pure t ht k x y w b⟩
  · exact .inr ⟨fun b hb => h ⟨b, (hA b).2 hb⟩, neverWrites_of_stop (hM.stop fun b hb => h ⟨b, hb⟩)⟩

theorem deliversSilently_or_never {E D : Type} {t : Target} (ht : 31 ≤ t.bits) {x y : String} {w : Nat → Bytes}
    (hw : ∀ n, firstNumber (FfiError.generic (w n)).text = some n) {M : Prog E D Bytes} (hM : Const M) {A : Bytes → Prop} (hA : ∀ b, M = pure b ↔ A b) :
    (∃ b, A b ∧
      DeliversSilently t (checkOut .out x y >>= fun _ => M >>= fun b => writeBlock t w b >>= fun _ => pure 0) .out b) ∨
      ((∀ b, ¬ A b) ∧ NeverWrites (checkOut .out x y >>= fun _ => M >>= fun b => writeBlock t w b >>= fun _ => pure 0)) := by
  by_cases h : ∃ b, M = pure b
  · obtain ⟨b, rfl⟩ := h
    exact .inl ⟨b, (hA b).1 rfl, deliversSilently_of_pure t ht x y w hw b⟩
  · exact .inr ⟨fun b hb => h ⟨b, (hA b).2 hb⟩, neverWrites_of_stop (hM.stop fun b hb => h ⟨b, hb⟩)⟩

/-- **C47**, generation of master keys: either the arguments have an answer, and the call delivers it by the protocol of `Delivers`
whatever the buffer is, or they have none and the call never succeeds nor writes an output. -/
theorem C47_master_keys (ht : 31 ≤ lib.t.bits) (p : Option Bytes) (rnd : Nat → K) (y : K) :
    (∃ b, MasterKeysAnswer lib p rnd y b ∧ Delivers lib.t (hGenerateMasterKeys lib p rnd y) .out b) ∨
    ((∀ b, ¬ MasterKeysAnswer lib p rnd y b) ∧ NeverWrites (hGenerateMasterKeys lib p rnd y)) := by
  rw [hGenerateMasterKeys_eq]
  exact delivers_or_never ht (const_masterKeysPayload p rnd y) fun _ => masterKeysPayload_iff

/-- **C47**, generation of a user key. -/
theorem C47_user_key (ht : 31 ≤ lib.t.bits) (priv : InBuf) (ap p : Option Bytes) (rnd : Nat → K) :
    (∃ b, UserKeyAnswer lib priv ap p rnd b ∧ Delivers lib.t (hGenerateUserPrivateKey lib priv ap p rnd) .out b) ∨
    ((∀ b, ¬ UserKeyAnswer lib priv ap p rnd b) ∧ NeverWrites (hGenerateUserPrivateKey lib priv ap p rnd)) := by
  rw [hGenerateUserPrivateKey_eq]
  exact delivers_or_never ht (const_userKeyPayload priv ap p rnd) fun _ => userKeyPayload_iff

/-- **C47**, rotation of attributes. -/
theorem C47_rotation (ht : 31 ≤ lib.t.bits) (a p : Option Bytes) :
    (∃ b, RotationAnswer lib a p b ∧ Delivers lib.t (hRotateAttributes lib a p) .out b) ∨
    ((∀ b, ¬ RotationAnswer lib a p b) ∧ NeverWrites (hRotateAttributes lib a p)) := by
  rw [hRotateAttributes_eq]
  exact delivers_or_never ht (const_rotatePayload (lib := lib) a p) fun _ => rotatePayload_iff

/-- **C47**, encryption of a block: the length needed is not reported when the buffer is too small (contrary to the CHANGELOG). -/
theorem C47_encrypt_block (ht : 31 ≤ lib.t.bits) (a : BlockArgs) (n : Nonce) :
    (∃ b, BlockAnswer lib a n b ∧ DeliversSilently lib.t (hEncryptBlock lib a n) .out b) ∨
    ((∀ b, ¬ BlockAnswer lib a n b) ∧ NeverWrites (hEncryptBlock lib a n)) := by
  rw [hEncryptBlock_eq]
  exact deliversSilently_or_never ht (fun n => tooSmall'_says (by decide +kernel) n 0) (const_encryptBlockPayload (lib := lib) a n) fun _ => encryptBlockPayload_iff

/-- **C47**, decryption of a block. -/
theorem C47_decrypt_block (ht : 31 ≤ lib.t.bits) (a : BlockArgs) :
    (∃ b, ClearBlockAnswer lib a b ∧ DeliversSilently lib.t (hDecryptBlock lib a) .out b) ∨
    ((∀ b, ¬ ClearBlockAnswer lib a b) ∧ NeverWrites (hDecryptBlock lib a)) := by
  rw [hDecryptBlock_eq]
  exact deliversSilently_or_never ht (fun n => tooSmall'_says (by decide +kernel) n 0) (const_decryptBlockPayload (lib := lib) a) fun _ => decryptBlockPayload_iff

/-- **C47**: a call refused for lack of space reports a size such that the call repeated with it (and memory of that size) succeeds. -/
theorem C47_retry {E D : Type} {t : Target} {call : Prog E D Int32} {k : Slot} {b : Bytes} (hd : Delivers t call k b)
    (hb : b.length < 2 ^ 31) {s : FState E D} {m : Bytes} {n : Int32} (h : s.mem.slots k = ⟨some m, some n⟩) (h0 : 0 < n.toInt)
    (hs : n.toInt < b.length) :
    ∃ s1 n1, call.run s = (.ret 1, s1) ∧ s1.mem.slots k = ⟨some m, some n1⟩ ∧
      ∀ (s2 : FState E D) (m2 : Bytes), s2.mem.slots k = ⟨some m2, some n1⟩ → n1.toInt ≤ m2.length →
        ∃ s3, call.run s2 = (.ret 0, s3) ∧ s3.mem.slots k = ⟨some (b ++ m2.drop b.length), some n1⟩ := by
  obtain ⟨s1, n1, h1, _, _, h2, h3⟩ := hd.small s m n h h0 hs
  have h3' := h3 hb
  refine ⟨s1, n1, h1, h2, fun s2 m2 h4 h5 => ?_⟩
  obtain ⟨s3, n3, g1, _, _, g2, g3⟩ := hd.fits s2 m2 n1 h4 (by omega) (by omega) (by omega)
  refine ⟨s3, g1, ?_⟩
  rw [g2]
  have : n3 = n1 := Int32.toInt_inj.1 ((g3 hb).trans h3'.symm)
  rw [this]

/-- Reading a registry after a part without effect. -/
theorem const_bind_read {E D α β γ : Type} {pre : Prog E D α} (hp : Const pre) {g : FState E D → β} {f : α → β → Prog E D γ}
    {s : FState E D} {b : β} (h : g s = b) :
    (pre >>= fun x => (fun s => (.next (g s), s) : Prog E D β) >>= f x) s = (pre >>= fun x => f x b) s := by
  rcases hp with ⟨a, rfl⟩ | ⟨e, rfl⟩ | rfl | rfl
  · rw [pure_bind, pure_bind, bind_next (x := (fun s => (.next (g s), s) : Prog E D β)) (s' := s) rfl, h]
  · rfl
  · rfl
  · rfl

/-- **C47**, encryption of a header with a cache. -/
theorem C47_encrypt_header_using_cache (ht : 31 ≤ lib.t.bits) (h : Int32) (c : EncryptionCache G2 Gt) (a : EncHeaderArgs K Gt Nonce) :
    (∃ kb hb, HeaderAnswer lib c a kb hb ∧
      DeliversHeader (fun s => s.enc.get h = some c) (hEncryptHeaderUsingCache lib h a) kb hb) ∨
    ((∀ kb hb, ¬ HeaderAnswer lib c a kb hb) ∧ NeverWritesOn (fun s => s.enc.get h = some c) (hEncryptHeaderUsingCache lib h a)) := by
  let W (x : Bytes × Bytes) : Foreign K G1 G2 G3 Gt Int32 :=
    writeTwo lib.t (tooSmall' "symmetric key") (tooSmall' "symmetric key") x.1 x.2
  let M : Foreign K G1 G2 G3 Gt (Bytes × Bytes) := do
    notNull a.attributes "Attributes pointer should not be null"
    encHeaderPayload lib c a
  have hM : Const M := (const_notNull _ _).bind fun _ => const_encHeaderPayload _ _
  have hA : ∀ kb hb, M = pure (kb, hb) ↔ HeaderAnswer lib c a kb hb := by
    intro kb hb
    rw [← encHeaderPayload_iff, notNull_bind_eq_pure]
    refine ⟨fun h => h.2, fun h => ⟨?_, h⟩⟩
    obtain ⟨_, _, _, _, h, _⟩ := encHeaderPayload_iff.1 h
    exact h.ne_none
  let rest : Foreign K G1 G2 G3 Gt Int32 := notNull a.attributes "Attributes pointer should not be null" >>= fun _ =>
    (fun s => (.next (s.enc.get h), s) : Foreign K G1 G2 G3 Gt (Option (EncryptionCache G2 Gt))) >>= fun cache =>
      match cache with
      | none => bail (utf8 ("Hybrid Cipher: no encryption cache with handle: " ++ toString h.toInt))
      | some cache => finishEncryptHeader lib cache a
  have hcall : hEncryptHeaderUsingCache lib h a = (checkEncryptHeaderOut >>= fun _ => rest) := rfl
  have hrest : ∀ s : FState (EncryptionCache G2 Gt) (DecryptionKey K G1 G3), s.enc.get h = some c → rest s = (M >>= W) s := by
    intro s hs
    refine (const_bind_read (const_notNull _ _) hs).trans ?_
    simp only [M, W, bind_assoc, finishEncryptHeader_eq]
  rw [hcall]
  by_cases hx : ∃ x, M = pure x
  · obtain ⟨⟨kb, hb⟩, hx⟩ := hx
    refine .inl ⟨kb, hb, (hA _ _).1 hx, deliversHeader_of (w := tooSmall' "symmetric key") (w' := tooSmall' "symmetric key") ht
      (tooSmall'_says (by decide +kernel)) (tooSmall'_says (by decide +kernel))
      fun s hs h1 h2 => ?_⟩
    rw [bind_next (checkEncryptHeaderOut_given h1 h2), hrest s hs, hx, pure_bind]
  · refine .inr ⟨fun kb hb h => hx ⟨_, (hA kb hb).2 h⟩, neverWritesOn_of_cases checkEncryptHeaderOut_cases (fun s hs => ?_)⟩
    rw [hrest s hs]
    exact hM.stop_cases (fun x h => hx ⟨x, h⟩) _ s

/-- **C47**, encryption of a header without cache. -/
theorem C47_encrypt_header (ht : 31 ≤ lib.t.bits) (c : EncCacheArgs) (a : EncHeaderArgs K Gt Nonce) :
    (∃ cache kb hb, c.Decodes lib cache ∧ HeaderAnswer lib cache a kb hb ∧
      DeliversHeader (fun _ => True) (hEncryptHeader lib c a) kb hb) ∨
    ((∀ cache kb hb, c.Decodes lib cache → ¬ HeaderAnswer lib cache a kb hb) ∧ NeverWrites (hEncryptHeader lib c a)) := by
  let M : Foreign K G1 G2 G3 Gt (Bytes × Bytes) := do
    notNull c.policy "Policy pointer should not be null"
    checkIn c.publicKey "Policy pointer should not be null" "The public key should not be empty"
    notNull a.attributes "Attributes pointer should not be null"
    let policy ← readStr c.policy (utf8 "Hybrid Cipher: invalid Policy")
    let policy ← lib.json (lib.serde.policyDec policy)
    let bytes ← readIn c.publicKey
    let publicKey ← lib.unwrap ((pubKeyCodec lib.t lib.cs).dec bytes)
    encHeaderPayload lib { policy := policy, publicKey := publicKey } a
  have hM : Const M := (const_notNull _ _).bind fun _ => (const_checkIn _ _ _).bind fun _ => (const_notNull _ _).bind fun _ =>
    (const_readStr _ _).bind fun _ => (const_json _).bind fun _ => (const_readIn _).bind fun _ => (const_libUnwrap _).bind fun _ =>
    const_encHeaderPayload _ _
  have hA : ∀ kb hb, M = pure (kb, hb) ↔ ∃ cache, c.Decodes lib cache ∧ HeaderAnswer lib cache a kb hb := by
    intro kb hb
    rw [notNull_bind_eq_pure, checkIn_bind_eq_pure, notNull_bind_eq_pure, strArg_bind]
    constructor
    · rintro ⟨_, h1, _, p, h2, h⟩
      obtain ⟨k, h3, h⟩ := (bytesArg_bind h1).1 h
      exact ⟨⟨p, k⟩, ⟨h2, h3⟩, encHeaderPayload_iff.1 h⟩
    · rintro ⟨⟨p, k⟩, ⟨h2, h3⟩, h⟩
      refine ⟨h2.ne_none, h3.not_missing, ?_, p, h2, (bytesArg_bind h3.not_missing).2 ⟨k, h3, encHeaderPayload_iff.2 h⟩⟩
      obtain ⟨_, _, _, _, h, _⟩ := h
      exact h.ne_none
  have heq : hEncryptHeader lib c a = (checkEncryptHeaderOut >>= fun _ => M >>= fun x =>
      writeTwo lib.t (tooSmall' "symmetric key") (tooSmall' "symmetric key") x.1 x.2) := by
    simp only [hEncryptHeader, finishEncryptHeader_eq, bind_assoc, M]
  rw [heq]
  by_cases h : ∃ x, M = pure x
  · obtain ⟨⟨kb, hb⟩, h⟩ := h
    obtain ⟨cache, h1, h2⟩ := (hA _ _).1 h
    refine .inl ⟨cache, kb, hb, h1, h2, deliversHeader_of (w := tooSmall' "symmetric key") (w' := tooSmall' "symmetric key") ht
      (tooSmall'_says (by decide +kernel)) (tooSmall'_says (by decide +kernel))
      fun s _ h1 h2 => ?_⟩
    rw [bind_next (checkEncryptHeaderOut_given h1 h2), h, pure_bind]
  · refine .inr ⟨fun cache kb hb h1 h2 => h ⟨_, (hA kb hb).2 ⟨cache, h1, h2⟩⟩,
      fun s => neverWritesOn_of_cases (S := fun _ => True) checkEncryptHeaderOut_cases (fun s _ => ?_) s trivial⟩
    exact hM.stop_cases (fun x hx => h ⟨x, hx⟩) _ s

/-- **C47**, decryption of a header with a cache. -/
theorem C47_decrypt_header_using_cache (ht : 31 ≤ lib.t.bits) (hd : InBuf) (h : Int32) (key : DecryptionKey K G1 G3) :
    (∃ kb uid ad, ClearHeaderAnswer lib key hd kb uid ad ∧
      DeliversClearHeader (fun s => s.dec.get h = some key) (hDecryptHeaderUsingCache lib hd h) kb uid ad) ∨
    ((∀ kb uid ad, ¬ ClearHeaderAnswer lib key hd kb uid ad) ∧
      NeverWritesOn (fun s => s.dec.get h = some key) (hDecryptHeaderUsingCache lib hd h)) := by
  let pre : Foreign K G1 G2 G3 Gt Bytes := do
    checkIn hd "Encrypted header bytes pointer should not be bull" "The encrypted header bytes size should be greater than zero"
    readIn hd
  have hpre : Const pre := (const_checkIn _ _ _).bind fun _ => const_readIn _
  let M : Foreign K G1 G2 G3 Gt (ClearTextHeader Key) := pre >>= decHeaderPayload lib key
  have hM : Const M := hpre.bind fun _ => const_libUnwrap _
  have hA : ∀ x, M = pure x ↔ BytesArg hd (decryptHybridHeader lib.e lib.bm lib.cs lib.t key) x := by
    intro x
    simp only [M, pre, bind_assoc]
    rw [checkIn_bind_eq_pure, (const_readIn _).bind_eq_pure]
    constructor
    · rintro ⟨h1, b, h2, h3⟩
      have h2 := readIn_eq_pure.1 h2
      exact ⟨b, h2, isIn_ne_nil h2 h1, libUnwrap_eq_pure.1 h3⟩
    · rintro ⟨b, h2, h1, h3⟩
      exact ⟨h2.not_missing h1, b, readIn_eq_pure.2 h2, libUnwrap_eq_pure.2 h3⟩
  let W (h : ClearTextHeader Key) : Foreign K G1 G2 G3 Gt Int32 :=
    writeThree lib.t (tooSmall' "symmetric key") (tooSmall' "uid") (tooSmall' "additional_data") (lib.e.keyEnc h.symmetricKey)
        h.metaData.uid h.metaData.additionalData
  let rest : Foreign K G1 G2 G3 Gt Int32 := pre >>= fun header =>
    (fun s => (.next (s.dec.get h), s) : Foreign K G1 G2 G3 Gt (Option (DecryptionKey K G1 G3))) >>= fun cache =>
      match cache with
      | none => bail (utf8 ("Hybrid Cipher: no decryption cache with handle: " ++ toString h.toInt))
      | some key => finishDecryptHeader lib key header
  have hcall : hDecryptHeaderUsingCache lib hd h = (checkOut .symKey "Symmetric key pointer should point to pre-allocated memory"
      "The symmetric key buffer should have a size greater than zero" >>= fun _ => rest) := by
    simp only [hDecryptHeaderUsingCache, rest, pre, bind_assoc]
    rfl
  have hrest : ∀ s : FState (EncryptionCache G2 Gt) (DecryptionKey K G1 G3), s.dec.get h = some key → rest s = (M >>= W) s := by
    intro s hs
    refine (const_bind_read hpre hs).trans ?_
    simp only [M, W, bind_assoc, finishDecryptHeader_eq]
  rw [hcall]
  by_cases hx : ∃ x, M = pure x
  · obtain ⟨x, hx⟩ := hx
    refine .inl ⟨lib.e.keyEnc x.symmetricKey, x.metaData.uid, x.metaData.additionalData, ⟨x, (hA x).1 hx, rfl, rfl, rfl⟩,
      deliversClearHeader_of (w := tooSmall' "symmetric key") (w' := tooSmall' "uid") (w'' := tooSmall' "additional_data") ht
      (tooSmall'_says (by decide +kernel)) (tooSmall'_says (by decide +kernel)) (tooSmall'_says (by decide +kernel))
      fun s hs h1 => ?_⟩
    rw [bind_next (checkOut_given _ _ h1), hrest s hs, hx, pure_bind]
  · refine .inr ⟨fun _ _ _ ⟨x, h, _⟩ => hx ⟨x, (hA x).2 h⟩, neverWritesOn_of_cases (fun s => ?_) (fun s hs => ?_)⟩
    · rcases checkOut_cases .symKey "Symmetric key pointer should point to pre-allocated memory"
        "The symmetric key buffer should have a size greater than zero" s with h | h | ⟨_, _, _, _, h⟩
      exacts [.inl h, .inr (.inl h), .inr (.inr h)]
    · rw [hrest s hs]
      exact hM.stop_cases (fun x h => hx ⟨x, h⟩) _ s

/-- **C47**, decryption of a header without cache. -/
theorem C47_decrypt_header (ht : 31 ≤ lib.t.bits) (hd k : InBuf) :
    (∃ key kb uid ad, KeyDecodes lib k key ∧ ClearHeaderAnswer lib key hd kb uid ad ∧
      DeliversClearHeader (fun _ => True) (hDecryptHeader lib hd k) kb uid ad) ∨
    ((∀ key kb uid ad, KeyDecodes lib k key → ¬ ClearHeaderAnswer lib key hd kb uid ad) ∧ NeverWrites (hDecryptHeader lib hd k)) := by
  let M : Foreign K G1 G2 G3 Gt (ClearTextHeader Key) := do
    checkIn hd "Encrypted header bytes pointer should not be bull" "The encrypted header bytes size should be greater than zero"
    checkIn k "The user decryption key pointer should not be null" "The user decryption key should not be empty"
    let header ← readIn hd
    let bytes ← readIn k
    let key ← lib.unwrap ((userKeyCodec lib.t lib.cs lib.bm).dec bytes)
    decHeaderPayload lib key header
  have hM : Const M := (const_checkIn _ _ _).bind fun _ => (const_checkIn _ _ _).bind fun _ => (const_readIn _).bind fun _ =>
    (const_readIn _).bind fun _ => (const_libUnwrap _).bind fun _ => const_libUnwrap _
  have hA : ∀ x, M = pure x ↔ ∃ key, KeyDecodes lib k key ∧ BytesArg hd (decryptHybridHeader lib.e lib.bm lib.cs lib.t key) x := by
    intro x
    rw [checkIn_bind_eq_pure, checkIn_bind_eq_pure, (const_readIn _).bind_eq_pure]
    constructor
    · rintro ⟨h1, h2, b, h3, h⟩
      have h3 := readIn_eq_pure.1 h3
      obtain ⟨key, h4, h⟩ := (bytesArg_bind h2).1 h
      exact ⟨key, h4, b, h3, isIn_ne_nil h3 h1, libUnwrap_eq_pure.1 h⟩
    · rintro ⟨key, h4, b, h3, h1, h⟩
      exact ⟨h3.not_missing h1, h4.not_missing, b, readIn_eq_pure.2 h3, (bytesArg_bind h4.not_missing).2
        ⟨key, h4, libUnwrap_eq_pure.2 h⟩⟩
  have heq : hDecryptHeader lib hd k = (checkOut .symKey "Symmetric key pointer should point to pre-allocated memory"
      "The symmetric key buffer should have a size greater than zero" >>= fun _ => M >>= fun h =>
      writeThree lib.t (tooSmall' "symmetric key") (tooSmall' "uid") (tooSmall' "additional_data") (lib.e.keyEnc h.symmetricKey)
        h.metaData.uid h.metaData.additionalData) := by
    simp only [hDecryptHeader, finishDecryptHeader_eq, bind_assoc, M]
  rw [heq]
  by_cases h : ∃ x, M = pure x
  · obtain ⟨x, h⟩ := h
    obtain ⟨key, h1, h2⟩ := (hA x).1 h
    refine .inl ⟨key, lib.e.keyEnc x.symmetricKey, x.metaData.uid, x.metaData.additionalData, h1, ⟨x, h2, rfl, rfl, rfl⟩,
      deliversClearHeader_of (w := tooSmall' "symmetric key") (w' := tooSmall' "uid") (w'' := tooSmall' "additional_data") ht
      (tooSmall'_says (by decide +kernel)) (tooSmall'_says (by decide +kernel)) (tooSmall'_says (by decide +kernel))
      fun s _ h1 => ?_⟩
    rw [bind_next (checkOut_given _ _ h1), h, pure_bind]
  · refine .inr ⟨fun key _ _ _ h1 ⟨x, h2, _⟩ => h ⟨x, (hA x).2 ⟨key, h1, h2⟩⟩,
      fun s => neverWritesOn_of_cases (S := fun _ => True) (fun s => ?_) (fun s _ => ?_) s trivial⟩
    · rcases checkOut_cases .symKey "Symmetric key pointer should point to pre-allocated memory"
        "The symmetric key buffer should have a size greater than zero" s with h | h | ⟨_, _, _, _, h⟩
      exacts [.inl h, .inr (.inl h), .inr (.inr h)]
    · exact hM.stop_cases (fun x hx => h ⟨x, hx⟩) _ s

/-! ### C46 -/

/-- **C46**, encryption: with a handle of the cache made from the arguments, the call with a cache behaves as the call without cache, in
all respects: reply, outputs, last error. -/
theorem C46_encryption {c : EncCacheArgs} {cache : EncryptionCache G2 Gt} (hc : c.Decodes lib cache) {h : Int32}
    {s : FState (EncryptionCache G2 Gt) (DecryptionKey K G1 G3)} (hs : s.enc.get h = some cache) (a : EncHeaderArgs K Gt Nonce) :
    (hEncryptHeaderUsingCache lib h a).run s = (hEncryptHeader lib c a).run s := by
  obtain ⟨⟨p, hp, hv, hpd⟩, k, hk, hk0, hkd⟩ := hc
  have h1 : hEncryptHeader lib c a = (checkEncryptHeaderOut >>= fun _ =>
      notNull a.attributes "Attributes pointer should not be null" >>= fun _ => finishEncryptHeader lib cache a) := by
    unfold hEncryptHeader
    rw [notNull_eq_pure.2 hp.ne_none, checkIn_eq_pure.2 (hk.not_missing hk0), readStr_eq_pure.2 ⟨hp, hv⟩, readIn_eq_pure.2 hk]
    simp only [pure_bind]
    rw [hpd, json_eq_pure.2 rfl, hkd, libUnwrap_eq_pure.2 rfl]
    simp only [pure_bind]
  rw [h1]
  unfold Prog.run hEncryptHeaderUsingCache
  congr 1
  refine bind_congr_at fun _ s' h2 => ?_
  have hs' : s'.enc = s.enc := by
    have hk : Keeps (checkEncryptHeaderOut : Foreign K G1 G2 G3 Gt Unit) := (keeps_checkOut _ _ _).bind fun _ => keeps_checkOut _ _ _
    have := hk s
    rw [h2] at this
    exact this.1
  have hs'' : s'.enc.get h = some cache := by rw [hs']; exact hs
  exact const_bind_read (const_notNull _ _) (g := fun s => s.enc.get h) hs''

/-- **C46**, decryption. -/
theorem C46_decryption {k : InBuf} {key : DecryptionKey K G1 G3} (hc : KeyDecodes lib k key) {h : Int32}
    {s : FState (EncryptionCache G2 Gt) (DecryptionKey K G1 G3)} (hs : s.dec.get h = some key) (hd : InBuf) :
    (hDecryptHeaderUsingCache lib hd h).run s = (hDecryptHeader lib hd k).run s := by
  obtain ⟨b, hk, hk0, hkd⟩ := hc
  have h1 : hDecryptHeader lib hd k = (checkOut .symKey "Symmetric key pointer should point to pre-allocated memory"
      "The symmetric key buffer should have a size greater than zero" >>= fun _ =>
      checkIn hd "Encrypted header bytes pointer should not be bull" "The encrypted header bytes size should be greater than zero"
      >>= fun _ => readIn hd >>= fun b => finishDecryptHeader lib key b) := by
    unfold hDecryptHeader
    rw [checkIn_eq_pure.2 (hk.not_missing hk0)]
    simp only [pure_bind]
    rw [readIn_eq_pure.2 hk]
    simp only [pure_bind]
    rw [hkd, libUnwrap_eq_pure.2 rfl]
    simp only [pure_bind]
  rw [h1]
  unfold Prog.run hDecryptHeaderUsingCache
  congr 1
  refine bind_congr_at fun _ s' h2 => ?_
  have hs' : s'.dec = s.dec := by
    have := (keeps_checkOut .symKey _ _ : Keeps (checkOut .symKey "Symmetric key pointer should point to pre-allocated memory"
      "The symmetric key buffer should have a size greater than zero" : Foreign K G1 G2 G3 Gt Unit)) s
    rw [h2] at this
    exact this.2
  rw [← bind_assoc, ← bind_assoc]
  have hs'' : s'.dec.get h = some key := by rw [hs']; exact hs
  exact const_bind_read ((const_checkIn _ _ _).bind fun _ => const_readIn _) (g := fun s => s.dec.get h) hs''

theorem registry_get_insert {α : Type} (r : Registry α) (k : Int32) (a : α) : (r.insert k a).get k = some a := by
  simp [Registry.get, Registry.insert, hget_hinsert]

/-- What a successful creation does: the arguments decode, the next identifier is behind the handle pointer, and designates the cache. -/
theorem createEncryptionCache_ok {c : EncCacheArgs} {s s1 : FState (EncryptionCache G2 Gt) (DecryptionKey K G1 G3)}
    (h : (hCreateEncryptionCache lib c).run s = (.ret 0, s1)) :
    ∃ cache, c.Decodes lib cache ∧ s1.mem.handle = some s.enc.next ∧ s1.enc.get s.enc.next = some cache := by
  unfold Prog.run at h
  rcases const_prepareEncryptionCache (lib := lib) c with ⟨cache, hc⟩ | ⟨e, hc⟩ | hc | hc
  · unfold hCreateEncryptionCache at h
    rw [hc, pure_bind] at h
    refine ⟨cache, prepareEncryptionCache_iff.1 hc, ?_⟩
    rw [bind_next (x := (fun s => (.next s.enc.fetchAdd.1, { s with enc := s.enc.fetchAdd.2 }) : Foreign K G1 G2 G3 Gt Int32)) rfl,
      bind_next (x := (fun s' => (.next (), { s' with enc := s'.enc.insert s.enc.fetchAdd.1 cache }) : Foreign K G1 G2 G3 Gt Unit)) rfl]
      at h
    unfold writeHandle at h
    split at h
    · simp only [finish, Prod.mk.injEq, true_and] at h
      subst h
      exact ⟨rfl, registry_get_insert _ _ _⟩
    · simp [finish] at h
  · unfold hCreateEncryptionCache at h
    rw [hc, bind_ret (x := (fun s => (.ret 1, { s with err := some e }) : Foreign K G1 G2 G3 Gt (EncryptionCache G2 Gt))) rfl] at h
    simp [finish] at h
  · unfold hCreateEncryptionCache at h
    rw [hc, bind_panicked (x := panicked) rfl] at h
    simp [finish] at h
  · unfold hCreateEncryptionCache at h
    rw [hc, bind_ub (x := undefined) rfl] at h
    simp [finish] at h

/-- The same for decryption caches. -/
theorem createDecryptionCache_ok {k : InBuf} {s s1 : FState (EncryptionCache G2 Gt) (DecryptionKey K G1 G3)}
    (h : (hCreateDecryptionCache lib k).run s = (.ret 0, s1)) :
    ∃ key, KeyDecodes lib k key ∧ s1.mem.handle = some s.dec.next ∧ s1.dec.get s.dec.next = some key := by
  unfold Prog.run at h
  rcases const_prepareDecryptionCache (lib := lib) k with ⟨cache, hc⟩ | ⟨e, hc⟩ | hc | hc
  · unfold hCreateDecryptionCache at h
    rw [hc, pure_bind] at h
    refine ⟨cache, prepareDecryptionCache_iff.1 hc, ?_⟩
    rw [bind_next (x := (fun s => (.next s.dec.fetchAdd.1, { s with dec := s.dec.fetchAdd.2 }) : Foreign K G1 G2 G3 Gt Int32)) rfl,
      bind_next (x := (fun s' => (.next (), { s' with dec := s'.dec.insert s.dec.fetchAdd.1 cache }) : Foreign K G1 G2 G3 Gt Unit)) rfl]
      at h
    unfold writeHandle at h
    split at h
    · simp only [finish, Prod.mk.injEq, true_and] at h
      subst h
      exact ⟨rfl, registry_get_insert _ _ _⟩
    · simp [finish] at h
  · unfold hCreateDecryptionCache at h
    rw [hc, bind_ret (x := (fun s => (.ret 1, { s with err := some e }) : Foreign K G1 G2 G3 Gt (DecryptionKey K G1 G3))) rfl] at h
    simp [finish] at h
  · unfold hCreateDecryptionCache at h
    rw [hc, bind_panicked (x := panicked) rfl] at h
    simp [finish] at h
  · unfold hCreateDecryptionCache at h
    rw [hc, bind_ub (x := undefined) rfl] at h
    simp [finish] at h

/-- **C46**: after the creation of an encryption cache, as long as its handle designates the same cache, the cached call behaves as the
uncached call with the arguments of the creation. -/
theorem C46_created_encryption {c : EncCacheArgs} {s0 s1 s : FState (EncryptionCache G2 Gt) (DecryptionKey K G1 G3)} {h : Int32}
    (hc : (hCreateEncryptionCache lib c).run s0 = (.ret 0, s1)) (hh : s1.mem.handle = some h) (hs : s.enc.get h = s1.enc.get h)
    (a : EncHeaderArgs K Gt Nonce) : (hEncryptHeaderUsingCache lib h a).run s = (hEncryptHeader lib c a).run s := by
  obtain ⟨cache, h1, h2, h3⟩ := createEncryptionCache_ok hc
  rw [hh, Option.some.injEq] at h2
  subst h2
  exact C46_encryption h1 (hs.trans h3) a

/-- **C46** for decryption caches. -/
theorem C46_created_decryption {k : InBuf} {s0 s1 s : FState (EncryptionCache G2 Gt) (DecryptionKey K G1 G3)} {h : Int32}
    (hc : (hCreateDecryptionCache lib k).run s0 = (.ret 0, s1)) (hh : s1.mem.handle = some h) (hs : s.dec.get h = s1.dec.get h)
    (hd : InBuf) : (hDecryptHeaderUsingCache lib hd h).run s = (hDecryptHeader lib hd k).run s := by
  obtain ⟨key, h1, h2, h3⟩ := createDecryptionCache_ok hc
  rw [hh, Option.some.injEq] at h2
  subst h2
  exact C46_decryption h1 (hs.trans h3) hd

/-! ### C49 -/

/-- A part of a call stops with an error, without other effect. -/
def StopsAt {E D α : Type} (p : Prog E D α) (s : FState E D) : Prop := ∃ e, p s = (.ret 1, { s with err := some e })

section
variable {E D α β : Type}

theorem StopsAt.refused {p : Prog E D Int32} {s : FState E D} (h : StopsAt p s) : Refused p s := by
  obtain ⟨e, h⟩ := h
  exact ⟨e, by rw [Prog.run, h]; rfl⟩

theorem StopsAt.bind {p : Prog E D α} {s : FState E D} (h : StopsAt p s) {f : α → Prog E D β} : StopsAt (p >>= f) s := by
  obtain ⟨e, h⟩ := h
  exact ⟨e, bind_ret h⟩

theorem StopsAt.next {p : Prog E D α} {s : FState E D} {a : α} (h : p s = (.next a, s)) {f : α → Prog E D β} (h' : StopsAt (f a) s) :
    StopsAt (p >>= f) s := by
  obtain ⟨e, h'⟩ := h'
  exact ⟨e, by rw [bind_next h, h']⟩

theorem stopsAt_bail {m : Bytes} {s : FState E D} : StopsAt (bail m : Prog E D α) s := ⟨_, rfl⟩

theorem stopsAt_notNull {p : Option Bytes} {m : String} {s : FState E D} {f : Unit → Prog E D β}
    (h : p = none ∨ (p ≠ none ∧ StopsAt (f ()) s)) : StopsAt (notNull p m >>= f) s := by
  rcases h with rfl | ⟨h, h'⟩
  · exact StopsAt.bind ⟨_, rfl⟩
  · exact StopsAt.next (by rw [notNull_eq_pure.2 h]; rfl) h'

theorem stopsAt_checkIn {b : InBuf} {m m' : String} {s : FState E D} {f : Unit → Prog E D β}
    (h : b.Missing ∨ (¬ b.Missing ∧ StopsAt (f ()) s)) : StopsAt (checkIn b m m' >>= f) s := by
  rcases h with h | ⟨h, h'⟩
  · obtain ⟨e, h⟩ := checkIn_missing (E := E) (D := D) (m := m) (m' := m') h
    exact StopsAt.bind ⟨e, by rw [h]⟩
  · exact StopsAt.next (by rw [checkIn_eq_pure.2 h]; rfl) h'

theorem stopsAt_readIn {b : InBuf} {s : FState E D} {f : Bytes → Prog E D β} (hb : b.Honest) (hm : ¬ b.Missing)
    (h : ∀ x, StopsAt (f x) s) : StopsAt (readIn b >>= f) s := by
  rcases hb with hb | ⟨x, hb⟩
  · exact absurd (.inl hb) hm
  · exact StopsAt.next (by rw [readIn_eq_pure.2 hb]; rfl) (h x)

theorem stopsAt_checkOut {k : Slot} {m m' : String} {s : FState E D} {f : Unit → Prog E D β} (hl : s.mem.LengthsGiven)
    (h : (s.mem.slots k).Missing ∨ (¬ (s.mem.slots k).Missing ∧ StopsAt (f ()) s)) : StopsAt (checkOut k m m' >>= f) s := by
  cases hs : s.mem.slots k with
  | mk p n =>
  cases p with
  | none => exact StopsAt.bind ⟨_, checkOut_null _ _ (by rw [hs])⟩
  | some p =>
    have := hl k
    rw [hs] at this
    cases n with
    | none => exact absurd rfl (this (by simp))
    | some n =>
      by_cases h0 : n = 0
      · subst h0
        exact StopsAt.bind ⟨_, checkOut_zero _ _ hs⟩
      · rcases h with h | ⟨_, h⟩
        · rw [hs] at h
          rcases h with h | h <;> simp at h
          exact absurd h h0
        · exact StopsAt.next (checkOut_pos _ _ hs h0) h

/-- Excluded middle, keeping both sides. -/
theorem or_and_right_of {A B : Prop} (h : A ∨ B) : A ∨ (¬ A ∧ B) := by
  by_cases hA : A
  · exact .inl hA
  · exact .inr ⟨hA, h.resolve_left hA⟩

end

/-- **C49**: when a mandatory argument is a null pointer or has a zero length, a foreign call returns 1, an error is recorded, and nothing
else changes: neither the memory of the caller nor the caches.  (The length pointers of the given buffers must not be null, and the
functions on blocks read their first inputs before they check the others.) -/
theorem C49_refused (c : FCall K Gt Nonce) (s : FState (EncryptionCache G2 Gt) (DecryptionKey K G1 G3)) (hl : s.mem.LengthsGiven)
    (hi : HonestInputs c) (h : MissingArgument s.mem c) : Refused (c.prog lib) s := by
  refine StopsAt.refused ?_
  have block : ∀ a : BlockArgs, a.key.Honest → a.uid.Honest → (a.key.Missing ∨ a.data.Missing) → StopsAt (readBlockArgs lib a) s := by
    intro a h1 h2 h
    unfold readBlockArgs
    refine stopsAt_checkIn ((or_and_right_of h).imp_right fun ⟨h3, h⟩ => ⟨h3, stopsAt_readIn h1 h3 fun _ => ?_⟩)
    split
    · rename_i hu
      refine stopsAt_readIn h2 ?_ fun _ => stopsAt_checkIn (.inl h)
      rintro (h4 | h4)
      · simp [h4] at hu
      · rw [int32_eq_zero] at h4; omega
    · rw [pure_bind]
      exact stopsAt_checkIn (.inl h)
  cases c <;> simp only [MissingArgument] at h <;> simp only [FCall.prog]
  case setError msg => exact stopsAt_notNull (.inl h)
  case generateMasterKeys p rnd y =>
    exact stopsAt_checkOut hl ((or_and_right_of h).imp_right fun ⟨h1, h⟩ => ⟨h1, stopsAt_notNull (.inl h)⟩)
  case generateUserPrivateKey priv ap p rnd =>
    exact stopsAt_checkOut hl ((or_and_right_of h).imp_right fun ⟨h1, h⟩ => ⟨h1, stopsAt_checkIn ((or_and_right_of h).imp_right
      fun ⟨h1, h⟩ => ⟨h1, stopsAt_notNull ((or_and_right_of h).imp_right fun ⟨h1, h⟩ => ⟨h1, stopsAt_notNull (.inl h)⟩)⟩)⟩)
  case rotateAttributes a p =>
    exact stopsAt_checkOut hl ((or_and_right_of h).imp_right fun ⟨h1, h⟩ => ⟨h1, stopsAt_notNull ((or_and_right_of h).imp_right
      fun ⟨h1, h⟩ => ⟨h1, stopsAt_notNull (.inl h)⟩)⟩)
  case createEncryptionCache a =>
    exact StopsAt.bind (stopsAt_notNull ((or_and_right_of h).imp_right fun ⟨h1, h⟩ => ⟨h1, stopsAt_checkIn (.inl h)⟩))
  case encryptHeaderUsingCache hd a =>
    unfold hEncryptHeaderUsingCache checkEncryptHeaderOut
    rw [bind_assoc]
    exact stopsAt_checkOut hl ((or_and_right_of h).imp_right fun ⟨h1, h⟩ => ⟨h1, stopsAt_checkOut hl ((or_and_right_of h).imp_right
      fun ⟨h1, h⟩ => ⟨h1, stopsAt_notNull (.inl h)⟩)⟩)
  case encryptHeader c a =>
    unfold hEncryptHeader checkEncryptHeaderOut
    rw [bind_assoc]
    exact stopsAt_checkOut hl ((or_and_right_of h).imp_right fun ⟨h1, h⟩ => ⟨h1, stopsAt_checkOut hl ((or_and_right_of h).imp_right
      fun ⟨h1, h⟩ => ⟨h1, stopsAt_notNull ((or_and_right_of h).imp_right fun ⟨h1, h⟩ => ⟨h1, stopsAt_checkIn ((or_and_right_of h).imp_right
      fun ⟨h1, h⟩ => ⟨h1, stopsAt_notNull (.inl h)⟩)⟩)⟩)⟩)
  case createDecryptionCache k => exact StopsAt.bind (stopsAt_checkIn (.inl h))
  case decryptHeaderUsingCache hd hh =>
    exact stopsAt_checkOut hl ((or_and_right_of h).imp_right fun ⟨h1, h⟩ => ⟨h1, stopsAt_checkIn (.inl h)⟩)
  case decryptHeader hd k =>
    exact stopsAt_checkOut hl ((or_and_right_of h).imp_right fun ⟨h1, h⟩ => ⟨h1, stopsAt_checkIn ((or_and_right_of h).imp_right
      fun ⟨h1, h⟩ => ⟨h1, stopsAt_checkIn (.inl h)⟩)⟩)
  case getEncryptedHeaderSize e => exact stopsAt_checkIn (.inl h)
  case encryptBlock a n =>
    exact stopsAt_checkOut hl ((or_and_right_of h).imp_right fun ⟨h1, h⟩ => ⟨h1, (block a hi.1 hi.2 h).bind⟩)
  case decryptBlock a =>
    exact stopsAt_checkOut hl ((or_and_right_of h).imp_right fun ⟨h1, h⟩ => ⟨h1, (block a hi.1 hi.2 h).bind⟩)

/-- **C49**, what is not checked: a null handle pointer is dereferenced when a cache is created (after the cache has been registered, so
it can never be destroyed by its handle), and a null length pointer by every function with an output buffer. -/
theorem C49_unchecked_pointers :
    (∀ (a : EncCacheArgs) c (s : FState (EncryptionCache G2 Gt) (DecryptionKey K G1 G3)), a.Decodes lib c → s.mem.handle = none →
      ∃ s', (hCreateEncryptionCache lib a).run s = (.ub, s') ∧ s'.enc.get s.enc.next = some c) ∧
    (∀ p rnd y m (s : FState (EncryptionCache G2 Gt) (DecryptionKey K G1 G3)), s.mem.slots .out = ⟨some m, none⟩ →
      (hGenerateMasterKeys lib p rnd y).run s = (.ub, s)) := by
  refine ⟨fun a c s h1 h2 => ?_, fun p rnd y m s h => ?_⟩
  · unfold Prog.run hCreateEncryptionCache
    rw [prepareEncryptionCache_iff.2 h1, pure_bind,
      bind_next (x := (fun s => (.next s.enc.fetchAdd.1, { s with enc := s.enc.fetchAdd.2 }) : Foreign K G1 G2 G3 Gt Int32)) rfl,
      bind_next (x := (fun s' => (.next (), { s' with enc := s'.enc.insert s.enc.fetchAdd.1 c }) : Foreign K G1 G2 G3 Gt Unit)) rfl]
    unfold writeHandle
    simp only [h2, finish]
    exact ⟨_, rfl, registry_get_insert _ _ _⟩
  · unfold Prog.run hGenerateMasterKeys
    rw [bind_ub (checkOut_noLen _ _ h)]
    rfl

/-- **C49**, `get_last_error` is an exception: with a missing buffer it returns 1 without recording an error, and without clearing the
last one. -/
theorem C49_get_last_error (s : FState (EncryptionCache G2 Gt) (DecryptionKey K G1 G3)) (h : (s.mem.slots .out).Missing) :
    (FCall.prog lib (.getLastError : FCall K Gt Nonce)).run s = (.ret 1, s) := by
  have : (hGetLastError lib.display : Foreign K G1 G2 G3 Gt Int32) s = (.ret 1, s) := by
    unfold hGetLastError
    rw [bind_next (x := outPtr .out) rfl]
    rcases h with h | h
    · rw [h]; rfl
    · cases hm : (s.mem.slots .out).mem with
      | none => rfl
      | some m =>
        rw [if_neg (by simp), bind_next (x := (fun s => (.next s, s) : Foreign K G1 G2 G3 Gt _)) rfl, h, if_neg (by simp)]
        have : (readLen .out : Foreign K G1 G2 G3 Gt Int32) s = (.next 0, s) := by unfold readLen; rw [h]
        rw [bind_next this]
        rfl
  exact run_ret this

/-! ### C45, one call -/

/-- **C45**: a handle which designates no encryption cache is refused without effect. -/
theorem C45_unknown_encryption_handle {h : Int32} {s : FState (EncryptionCache G2 Gt) (DecryptionKey K G1 G3)}
    (hs : s.enc.get h = none) (hl : s.mem.LengthsGiven) (a : EncHeaderArgs K Gt Nonce) :
    Refused (hEncryptHeaderUsingCache lib h a) s := by
  refine StopsAt.refused ?_
  unfold hEncryptHeaderUsingCache checkEncryptHeaderOut
  rw [bind_assoc]
  refine stopsAt_checkOut hl (or_and_right_of (.inr (stopsAt_checkOut hl (or_and_right_of (.inr (stopsAt_notNull
    (or_and_right_of (.inr ?_))))))))
  exact StopsAt.next (a := none) (by rw [hs]) stopsAt_bail

/-- **C45**: a handle which designates no decryption cache is refused without effect. -/
theorem C45_unknown_decryption_handle {h : Int32} {s : FState (EncryptionCache G2 Gt) (DecryptionKey K G1 G3)}
    (hs : s.dec.get h = none) (hl : s.mem.LengthsGiven) {hd : InBuf} (hi : hd.Honest) :
    Refused (hDecryptHeaderUsingCache lib hd h) s := by
  refine StopsAt.refused ?_
  unfold hDecryptHeaderUsingCache
  refine stopsAt_checkOut hl (or_and_right_of (.inr (stopsAt_checkIn ((Classical.em _).imp_right fun hm => ⟨hm, stopsAt_readIn hi hm fun _ => ?_⟩))))
  exact StopsAt.next (a := none) (by rw [hs]) stopsAt_bail

end

/-! ### Concrete cases -/

namespace Demo

/-- **C47**: the master keys of the example are delivered. -/
theorem master_delivers : Delivers ffi.t (hGenerateMasterKeys ffi (some [1, 0]) drawsF 3) .out masterB := by
  rcases C47_master_keys (lib := ffi) (by decide) (some [1, 0]) drawsF 3 with ⟨b, h, hd⟩ | ⟨h, _⟩
  · rw [← pure_eq_pure.1 ((masterKeysPayload_iff.2 h).symm.trans (masterKeysPayload_iff.2 master_answer))]
    exact hd
  · exact absurd master_answer (h _)

/-- In a buffer of 1000 bytes, the 972 bytes of the keys are written and the last 28 bytes are kept. -/
example : ∃ s', ∃ n : Int32, (hGenerateMasterKeys ffi (some [1, 0]) drawsF 3).run (state fun _ => buf 1000 1000) = (.ret 0, s') ∧
    s'.mem.slots .out = ⟨some (masterB ++ List.replicate 28 0), some n⟩ ∧ n.toInt = 972 := by
  obtain ⟨s', n, h1, _, _, h2, h3⟩ := master_delivers.fits (state fun _ => buf 1000 1000) (List.replicate 1000 0) 1000 rfl (by decide)
    (by rw [masterB_length]; decide) (by rw [masterB_length, List.length_replicate]; decide)
  refine ⟨s', n, h1, h2.trans ?_, (h3 (by rw [masterB_length]; decide)).trans (by rw [masterB_length]; decide)⟩
  rw [masterB_length, List.drop_replicate]

/-- In a buffer of 10 bytes nothing is written, the call fails and tells 972; the call repeated with 972 bytes succeeds. -/
example : ∃ s1, ∃ n1 : Int32, (hGenerateMasterKeys ffi (some [1, 0]) drawsF 3).run (state fun _ => buf 10 10) = (.ret 1, s1) ∧
    s1.mem.slots .out = ⟨some (List.replicate 10 0), some n1⟩ ∧ n1.toInt = 972 ∧
    ∃ s3, (hGenerateMasterKeys ffi (some [1, 0]) drawsF 3).run (state fun _ => buf 972 n1) = (.ret 0, s3) := by
  have hl : (masterB.length : Int) = 972 := by rw [masterB_length]; rfl
  obtain ⟨s1, n1, h1, h2, h3⟩ := C47_retry master_delivers (by rw [masterB_length]; decide) (s := state fun _ => buf 10 10) (m := List.replicate 10 0)
    (n := 10) rfl (by decide) (by rw [hl]; decide)
  obtain ⟨s1', n1', g1, _, _, g2, g3⟩ := master_delivers.small (state fun _ => buf 10 10) (List.replicate 10 0) 10 rfl (by decide)
    (by rw [hl]; decide)
  rw [h1, Prod.mk.injEq] at g1
  rw [← g1.2, h2, OutBuf.mk.injEq, Option.some.injEq] at g2
  have h4 : n1.toInt = 972 := by
    rw [Option.some.inj g2.2, g3 (by rw [masterB_length]; decide), hl]
  obtain ⟨s3, h5, _⟩ := h3 (state fun _ => buf 972 n1) (List.replicate 972 0) rfl (by rw [h4, List.length_replicate]; decide)
  exact ⟨s1, n1, h1, h2, h4, s3, h5⟩

/-- **C47**, what the check of the capacity lets through: with the capacity -1 and 10 bytes of memory, the call writes out of bounds. -/
example : ((hGenerateMasterKeys ffi (some [1, 0]) drawsF 3).run (state fun _ => buf 10 (-1))).1 = .ub :=
  (master_delivers.negative (state fun _ => buf 10 (-1)) (List.replicate 10 0) (-1) rfl (by decide)
    (by rw [masterB_length]; decide)).2 (by rw [masterB_length]; decide)

/-- A null policy: the call never writes anything. -/
example : NeverWrites (hGenerateMasterKeys ffi none drawsF 3) := by
  rcases C47_master_keys (lib := ffi) (by decide) none drawsF 3 with ⟨b, ⟨_, _, _, _, _, h, _⟩, _⟩ | ⟨_, h⟩
  · exact absurd rfl h.ne_none
  · exact h

/-- **C47**, user key: delivered. -/
theorem user_delivers : Delivers ffi.t (hGenerateUserPrivateKey ffi (input privB) (some [1, 0]) (some [1, 0]) drawsF) .out userB := by
  rcases C47_user_key (lib := ffi) (by decide) (input privB) (some [1, 0]) (some [1, 0]) drawsF with ⟨b, h, hd⟩ | ⟨h, _⟩
  · rw [← pure_eq_pure.1 ((userKeyPayload_iff.2 h).symm.trans (userKeyPayload_iff.2 user_answer))]
    exact hd
  · exact absurd user_answer (h _)

/-- **C47**, rotation of the attribute `hr`: the rotated policy, here `[2]`, is delivered. -/
example : Delivers ffi.t (hRotateAttributes ffi (some [3, 0]) (some [1, 0])) .out [2] := by
  have ha : RotationAnswer ffi (some [3, 0]) (some [1, 0]) [2] := ⟨policy, [hr], rotated, policy_arg, hr_arg, rotations, rfl⟩
  rcases C47_rotation (lib := ffi) (by decide) (some [3, 0]) (some [1, 0]) with ⟨b, h, hd⟩ | ⟨h, _⟩
  · rw [← pure_eq_pure.1 ((rotatePayload_iff.2 h).symm.trans (rotatePayload_iff.2 ha))]
    exact hd
  · exact absurd ha (h _)

/-- A symmetric key. -/
def key7 : SymKey := ⟨List.replicate 32 7, by decide⟩

/-- A symmetric key, an identifier, and 3 bytes to encrypt. -/
def blockArgs (x : Bytes) : BlockArgs := ⟨input (List.replicate 32 7), input [1, 2, 3, 4], 5, input x⟩

/-- **C47**, blocks: a block of 3 bytes is encrypted if there is room, otherwise refused without effect, in particular the length
needed is not told; and its decryption delivers the 3 bytes. -/
example : ∃ b, BlockAnswer ffi (blockArgs [1, 2, 3]) nonce b ∧ 10 < b.length ∧ b.length < 1000 ∧
    Refused (hEncryptBlock ffi (blockArgs [1, 2, 3]) nonce) (state fun _ => buf 10 10) ∧
    (∃ s', (hEncryptBlock ffi (blockArgs [1, 2, 3]) nonce).run (state fun _ => buf 1000 1000) = (.ret 0, s')) ∧
    ∃ s', ∃ n : Int32, (hDecryptBlock ffi (blockArgs b)).run (state fun _ => buf 3 3) = (.ret 0, s') ∧
      s'.mem.slots .out = ⟨some [1, 2, 3], some n⟩ := by
  obtain ⟨b, hb⟩ : ∃ b, encryptHybridBlock symmetric maxClearTextSize key7 [1, 2, 3, 4] 5 [1, 2, 3] nonce = .ok b :=
    exists_of_isOk (by decide +kernel)
  have hb' : b = bytesOf (encryptHybridBlock symmetric maxClearTextSize key7 [1, 2, 3, 4] 5 [1, 2, 3] nonce) := by
    rw [hb]; rfl
  have hk : BytesArg (input (List.replicate 32 7)) ffi.e.keyDec key7 :=
    ⟨_, input_isIn (by decide), by decide, by decide +kernel⟩
  have hn : asUsize ffi.t 5 = 5 := by decide +kernel
  have ha : BlockAnswer ffi (blockArgs [1, 2, 3]) nonce b :=
    ⟨_, _, _, hk, .inr ⟨by decide, input_isIn (by decide)⟩, input_isIn (by decide), by decide, hb⟩
  have hl : 10 < b.length ∧ b.length < 1000 := by rw [hb']; decide +kernel
  have hc : ClearBlockAnswer ffi (blockArgs b) [1, 2, 3] :=
    ⟨_, _, _, hk, .inr ⟨(by decide : 0 < (input [1, 2, 3, 4]).len.toInt), input_isIn (by decide)⟩, input_isIn (by omega), by rintro rfl; simp at hl, by rw [hb']; decide +kernel⟩
  refine ⟨b, ha, hl.1, hl.2, ?_⟩
  rcases C47_encrypt_block (lib := ffi) (by decide) (blockArgs [1, 2, 3]) nonce with ⟨b', h, hd⟩ | ⟨h, _⟩
  · obtain rfl := pure_eq_pure.1 ((encryptBlockPayload_iff.2 h).symm.trans (encryptBlockPayload_iff.2 ha))
    refine ⟨(hd.small (state fun _ => buf 10 10) _ 10 rfl (by decide) (by have : (10 : Int32).toInt = 10 := by decide
                                                                          omega)).1, ?_, ?_⟩
    · obtain ⟨s', _, h1, _⟩ := hd.fits (state fun _ => buf 1000 1000) (List.replicate 1000 0) 1000 rfl (by decide)
        (by have : (1000 : Int32).toInt = 1000 := by decide
            omega) (by rw [List.length_replicate]; omega)
      exact ⟨s', h1⟩
    · rcases C47_decrypt_block (lib := ffi) (by decide) (blockArgs b') with ⟨c, h, hd⟩ | ⟨h, _⟩
      · obtain rfl := pure_eq_pure.1 ((decryptBlockPayload_iff.2 h).symm.trans (decryptBlockPayload_iff.2 hc))
        obtain ⟨s', n, h1, _, _, h2, _⟩ := hd.fits (state fun _ => buf 3 3) _ 3 rfl (by decide) (by decide) (by decide)
        exact ⟨s', n, h1, h2⟩
      · exact absurd hc (h _)
  · exact absurd ha (h _)

/-- **C47**, headers: with a buffer of 1000 bytes for each output the header is delivered; if the header buffer has only 10 bytes the
call fails, but the symmetric key has been written. -/
example : ∃ kb hb, HeaderAnswer ffi cache (headerArgs 1) kb hb ∧
    (∃ s', (hEncryptHeader ffi cacheArgs (headerArgs 1)).run (state fun _ => buf 1000 1000) = (.ret 0, s')) ∧
    (∃ s', (hEncryptHeader ffi cacheArgs (headerArgs 1)).run (state fun k => if k = .header then buf 10 10 else buf 32 32) = (.ret 1, s') ∧
      ∃ n : Int32, s'.mem.slots .symKey = ⟨some kb, some n⟩) := by
  obtain ⟨kb, hb, ha, hk, hl, hl'⟩ := header_answer
  refine ⟨kb, hb, ha, ?_⟩
  have e32 : (32 : Int32).toInt = 32 := by decide
  have e10 : (10 : Int32).toInt = 10 := by decide
  have e1000 : (1000 : Int32).toInt = 1000 := by decide
  rcases C47_encrypt_header (lib := ffi) (by decide) cacheArgs (headerArgs 1) with ⟨cache', kb', hb', h1, h2, hd⟩ | ⟨h, _⟩
  · have hc : cache' = cache := pure_eq_pure.1 ((prepareEncryptionCache_iff.2 h1).symm.trans (prepareEncryptionCache_iff.2 cache_decodes))
    subst hc
    have := pure_eq_pure.1 ((encHeaderPayload_iff.2 h2).symm.trans (encHeaderPayload_iff.2 ha))
    rw [Prod.mk.injEq] at this
    obtain ⟨rfl, rfl⟩ := this
    constructor
    · obtain ⟨s', h3, _⟩ := hd.fits (state fun _ => buf 1000 1000) trivial ⟨List.replicate 1000 0, 1000, rfl, by decide, by omega, by rw [List.length_replicate]; omega⟩
        ⟨List.replicate 1000 0, 1000, rfl, by decide, by omega, by rw [List.length_replicate]; omega⟩
      exact ⟨s', h3⟩
    · obtain ⟨s', h3, _, _, ⟨m, n, h4, h5, _⟩, _⟩ := hd.headerSmall (state fun k => if k = .header then buf 10 10 else buf 32 32) trivial
        ⟨List.replicate 32 0, 32, rfl, by decide, by omega, by simp; omega⟩ ⟨List.replicate 10 0, 10, rfl, by decide, by omega⟩
      refine ⟨s', h3, n, ?_⟩
      have h4 : List.replicate 32 0 = m := Option.some.inj h4
      rw [h5, ← h4, hk, List.drop_replicate, Nat.sub_self, List.replicate_zero, List.append_nil]
  · exact absurd ha (h _ _ _ cache_decodes)

/-- A state where the encryption cache is registered with handle 4. -/
def cached : FState (EncryptionCache F F) (DecryptionKey F F F) := { state (fun _ => buf 1000 1000) with enc := ⟨5, [(4, cache)]⟩ }

/-- **C46**: with that handle, encryption behaves as without cache. -/
example : (hEncryptHeaderUsingCache ffi 4 (headerArgs 1)).run cached = (hEncryptHeader ffi cacheArgs (headerArgs 1)).run cached :=
  C46_encryption cache_decodes rfl _

/-- **C46**: a creation gives a handle for which the same holds. -/
example : ∃ s1, (hCreateEncryptionCache ffi cacheArgs).run cached = (.ret 0, s1) ∧ s1.mem.handle = some 5 ∧
    (hEncryptHeaderUsingCache ffi 5 (headerArgs 1)).run s1 = (hEncryptHeader ffi cacheArgs (headerArgs 1)).run s1 := by
  have h : ∃ s1, (hCreateEncryptionCache ffi cacheArgs).run cached = (.ret 0, s1) ∧ s1.mem.handle = some 5 := by
    unfold hCreateEncryptionCache
    rw [prepareEncryptionCache_iff.2 cache_decodes]
    exact ⟨_, rfl, rfl⟩
  obtain ⟨s1, h1, h2⟩ := h
  exact ⟨s1, h1, h2, C46_created_encryption h1 h2 rfl _⟩

/-- **C46** for decryption. -/
example : ∃ key, KeyDecodes ffi (input userB) key ∧ ∀ hd s1, (hCreateDecryptionCache ffi (input userB)).run cached = (.ret 0, s1) →
    (hDecryptHeaderUsingCache ffi hd 0).run s1 = (hDecryptHeader ffi hd (input userB)).run s1 := by
  obtain ⟨key, hkey⟩ := userB_decodes
  refine ⟨key, hkey, fun hd s1 h => ?_⟩
  obtain ⟨key', _, h2, h3⟩ := createDecryptionCache_ok h
  exact C46_created_decryption h h2 rfl hd

example : ∃ s1, (hCreateDecryptionCache ffi (input userB)).run cached = (.ret 0, s1) := by
  obtain ⟨key, hkey⟩ := userB_decodes
  unfold hCreateDecryptionCache
  rw [prepareDecryptionCache_iff.2 hkey]
  exact ⟨_, rfl⟩

/-- **C49**: a null output buffer, an empty private key, a null policy. -/
example : Refused (FCall.prog ffi (.generateUserPrivateKey (input privB) (some [1, 0]) (some [1, 0]) drawsF : FCall F F SymNonce))
    (state fun _ => ⟨none, none⟩) :=
  C49_refused _ _ (fun _ h => absurd rfl h) trivial (.inl (.inl rfl))
example : Refused (FCall.prog ffi (.generateUserPrivateKey ⟨some [], 0⟩ (some [1, 0]) (some [1, 0]) drawsF : FCall F F SymNonce))
    (state fun _ => buf 10 10) :=
  C49_refused _ _ (fun k _ h => by cases h) trivial (.inr (.inl (.inr rfl)))
example : Refused (FCall.prog ffi (.encryptBlock ⟨input (List.replicate 32 7), ⟨none, 0⟩, 1, ⟨none, 4⟩⟩ nonce : FCall F F SymNonce))
    (state fun _ => buf 10 10) :=
  C49_refused _ _ (fun k _ h => by cases h) ⟨.inr ⟨_, input_isIn (by decide)⟩, .inl rfl⟩ (.inr (.inr (.inl rfl)))

/-- **C49**, null length and handle pointers. -/
example : ((hGenerateMasterKeys ffi (some [1, 0]) drawsF 3).run (state fun _ => ⟨some [], none⟩)).1 = .ub :=
  congrArg Prod.fst (C49_unchecked_pointers.2 (some [1, 0]) drawsF 3 [] (state fun _ => ⟨some [], none⟩) rfl)
example : ∃ s', (hCreateEncryptionCache ffi cacheArgs).run { cached with mem := ⟨fun _ => buf 1 1, none⟩ } = (.ub, s') ∧
    s'.enc.get 5 = some cache :=
  C49_unchecked_pointers.1 cacheArgs cache { cached with mem := ⟨fun _ => buf 1 1, none⟩ } cache_decodes rfl
example : (FCall.prog ffi (.getLastError : FCall F F SymNonce)).run { cached with mem := ⟨fun _ => ⟨none, some 5⟩, none⟩ } =
    (.ret 1, { cached with mem := ⟨fun _ => ⟨none, some 5⟩, none⟩ }) := C49_get_last_error _ (.inl rfl)

/-- **C45**: handle 7 designates nothing. -/
example : Refused (hEncryptHeaderUsingCache ffi 7 (headerArgs 1)) cached :=
  C45_unknown_encryption_handle rfl (fun k _ h => by cases h) _
example : Refused (hDecryptHeaderUsingCache ffi (input [1, 2, 3]) 4) cached :=
  C45_unknown_decryption_handle rfl (fun k _ h => by cases h) (.inr ⟨_, input_isIn (by decide)⟩)

end Demo

end Abe
