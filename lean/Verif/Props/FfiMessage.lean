import Verif.Props.Ffi

set_option linter.unusedSectionVars false

/-!
# Property C92: the size needed, in the text of the error of a call of the C interface
-/

namespace Abe
open Prog

section
variable {K G1 G2 G3 Gt Key Nonce : Type} [Field K] [DecidableEq K] {lib : FfiLib K G1 G2 G3 Gt Key Nonce}

/-- The error of a call given too small a buffer. -/
theorem small_error {E D : Type} {t : Target} (ht : 31 ≤ t.bits) {k : Slot} {x y : String} {w : Nat → Int32 → Bytes} {M : Prog E D Bytes}
    {b : Bytes} (hM : M = pure b) {s : FState E D} (hs : (s.mem.slots k).TooSmall b) :
    ∃ n, ((checkOut k x y >>= fun _ => M >>= fun b => writeOut t k w b >>= fun _ => pure 0 : Prog E D Int32).run s).2.err =
      some (.generic (w b.length n)) := by
  obtain ⟨m, n, h, h0, h1⟩ := hs
  have hn : n ≠ 0 := fun e => by rw [int32_eq_zero.1 e] at h0; omega
  have ha := asUsize_nonneg ht h0.le
  subst hM
  refine ⟨n, ?_⟩
  rw [Prog.run, bind_next (checkOut_pos x y h hn), pure_bind, bind_ret (writeOut_small (w := w) h (show asUsize t n < b.length by omega))]
  rfl

/-- **C92.** When the buffer for the master keys is too small, the text of the error tells the size needed. -/
theorem C92_master_keys (ht : 31 ≤ lib.t.bits) {p : Option Bytes} {rnd : Nat → K} {y : K} {b : Bytes} (h : MasterKeysAnswer lib p rnd y b)
    {s : FState (EncryptionCache G2 Gt) (DecryptionKey K G1 G3)} (hs : (s.mem.slots .out).TooSmall b) :
    SaysSize ((hGenerateMasterKeys lib p rnd y).run s).2 b.length := by
  rw [hGenerateMasterKeys_eq]
  obtain ⟨n, hn⟩ := small_error ht (masterKeysPayload_iff.2 h) hs
  exact ⟨_, hn, tooSmall_says (by decide +kernel) _ _⟩

/-- **C92.** When the buffer for a user key is too small, the text of the error tells the size needed. -/
theorem C92_user_key (ht : 31 ≤ lib.t.bits) {priv : InBuf} {ap p : Option Bytes} {rnd : Nat → K} {b : Bytes}
    (h : UserKeyAnswer lib priv ap p rnd b) {s : FState (EncryptionCache G2 Gt) (DecryptionKey K G1 G3)}
    (hs : (s.mem.slots .out).TooSmall b) : SaysSize ((hGenerateUserPrivateKey lib priv ap p rnd).run s).2 b.length := by
  rw [hGenerateUserPrivateKey_eq]
  obtain ⟨n, hn⟩ := small_error ht (userKeyPayload_iff.2 h) hs
  exact ⟨_, hn, tooSmall_says (by decide +kernel) _ _⟩

/-- **C92**, block functions: the text of the error is the only place where the size needed is told, the memory of the caller is
unchanged. -/
theorem C92_encrypt_block (ht : 31 ≤ lib.t.bits) {a : BlockArgs} {nonce : Nonce} {b : Bytes} (h : BlockAnswer lib a nonce b)
    {s : FState (EncryptionCache G2 Gt) (DecryptionKey K G1 G3)} (hs : (s.mem.slots .out).TooSmall b) :
    SaysSize ((hEncryptBlock lib a nonce).run s).2 b.length ∧ ((hEncryptBlock lib a nonce).run s).2.mem = s.mem := by
  rcases C47_encrypt_block (lib := lib) (G1 := G1) (G2 := G2) (G3 := G3) ht a nonce with ⟨b', h', hd⟩ | ⟨h', _⟩
  · obtain rfl := pure_eq_pure.1 ((encryptBlockPayload_iff.2 h').symm.trans (encryptBlockPayload_iff.2 h))
    obtain ⟨m, n, h1, h2, h3⟩ := hs
    obtain ⟨⟨e, he⟩, hz⟩ := hd.small s m n h1 h2 h3
    exact ⟨hz, by rw [he]⟩
  · exact absurd h (h' b)

/-- **C92**, block functions. -/
theorem C92_decrypt_block (ht : 31 ≤ lib.t.bits) {a : BlockArgs} {b : Bytes} (h : ClearBlockAnswer lib a b)
    {s : FState (EncryptionCache G2 Gt) (DecryptionKey K G1 G3)} (hs : (s.mem.slots .out).TooSmall b) :
    SaysSize ((hDecryptBlock lib a).run s).2 b.length ∧ ((hDecryptBlock lib a).run s).2.mem = s.mem := by
  rcases C47_decrypt_block (lib := lib) (G1 := G1) (G2 := G2) (G3 := G3) ht a with ⟨b', h', hd⟩ | ⟨h', _⟩
  · obtain rfl := pure_eq_pure.1 ((decryptBlockPayload_iff.2 h').symm.trans (decryptBlockPayload_iff.2 h))
    obtain ⟨m, n, h1, h2, h3⟩ := hs
    obtain ⟨⟨e, he⟩, hz⟩ := hd.small s m n h1 h2 h3
    exact ⟨hz, by rw [he]⟩
  · exact absurd h (h' b)

/-- **C92**, encryption of a header: the text tells the size of the first output which does not fit. -/
theorem C92_encrypt_header (ht : 31 ≤ lib.t.bits) {c : EncCacheArgs} {cache : EncryptionCache G2 Gt} (hc : c.Decodes lib cache)
    {a : EncHeaderArgs K Gt Nonce} {kb hb : Bytes} (h : HeaderAnswer lib cache a kb hb)
    {s : FState (EncryptionCache G2 Gt) (DecryptionKey K G1 G3)} :
    ((s.mem.slots .symKey).TooSmall kb → (s.mem.slots .header).Given → SaysSize ((hEncryptHeader lib c a).run s).2 kb.length) ∧
    ((s.mem.slots .symKey).Room kb → (s.mem.slots .header).TooSmall hb → SaysSize ((hEncryptHeader lib c a).run s).2 hb.length) := by
  rcases C47_encrypt_header (lib := lib) (G1 := G1) (G3 := G3) ht c a with ⟨cache', kb', hb', hc', h', hd⟩ | ⟨h', _⟩
  · obtain rfl := pure_eq_pure.1 ((prepareEncryptionCache_iff (G1 := G1) (G3 := G3).2 hc').symm.trans (prepareEncryptionCache_iff.2 hc))
    have := pure_eq_pure.1 ((encHeaderPayload_iff.2 h').symm.trans (encHeaderPayload_iff (G1 := G1) (G3 := G3).2 h))
    simp only [Prod.mk.injEq] at this
    obtain ⟨rfl, rfl⟩ := this
    constructor
    · intro h1 h2
      obtain ⟨s', hr, hz, _⟩ := hd.keySmall s trivial h1 h2
      rwa [hr]
    · intro h1 h2
      obtain ⟨s', hr, hz, _⟩ := hd.headerSmall s trivial h1 h2
      rwa [hr]
  · exact absurd h (h' cache kb hb hc)

/-- **C92**, decryption of a header: the text tells the size of the first output which does not fit. -/
theorem C92_decrypt_header (ht : 31 ≤ lib.t.bits) {hd k : InBuf} {key : DecryptionKey K G1 G3} (hk : KeyDecodes lib k key)
    {kb uid : Bytes} {ad : Option Bytes} (h : ClearHeaderAnswer lib key hd kb uid ad)
    {s : FState (EncryptionCache G2 Gt) (DecryptionKey K G1 G3)} :
    ((s.mem.slots .symKey).TooSmall kb → SaysSize ((hDecryptHeader lib hd k).run s).2 kb.length) ∧
    ((s.mem.slots .symKey).Room kb → (s.mem.slots .uid).TooSmall uid → SaysSize ((hDecryptHeader lib hd k).run s).2 uid.length) ∧
    (∀ x, ad = some x → (s.mem.slots .symKey).Room kb → ((s.mem.slots .uid).Unwanted ∨ (s.mem.slots .uid).Room uid) →
      (s.mem.slots .additional).TooSmall x → SaysSize ((hDecryptHeader lib hd k).run s).2 x.length) := by
  rcases C47_decrypt_header (lib := lib) (G2 := G2) (Gt := Gt) ht hd k with ⟨key', kb', uid', ad', hk', h', hd⟩ | ⟨h', _⟩
  · obtain rfl := pure_eq_pure.1 ((prepareDecryptionCache_iff (G2 := G2).2 hk').symm.trans (prepareDecryptionCache_iff.2 hk))
    obtain ⟨x, ⟨b, hb, hb0, hx⟩, rfl, rfl, rfl⟩ := h
    obtain ⟨x', ⟨b', hb', _, hx'⟩, rfl, rfl, rfl⟩ := h'
    obtain rfl := pure_eq_pure.1 ((readIn_eq_pure (E := EncryptionCache G2 Gt) (D := DecryptionKey K G1 G3).2 hb).symm.trans (readIn_eq_pure.2 hb'))
    rw [hx] at hx'
    cases hx'
    refine ⟨fun h1 => ?_, fun h1 h2 => ?_, fun y hy h1 h2 h3 => ?_⟩
    · obtain ⟨s', hr, hz, _⟩ := hd.keySmall s trivial h1
      rwa [hr]
    · obtain ⟨s', hr, hz, _⟩ := hd.uidSmall s trivial h1 h2
      rwa [hr]
    · obtain ⟨s', hr, hz, _⟩ := hd.additionalSmall s y trivial hy h1 h2 h3
      rwa [hr]
  · exact absurd h (h' key kb uid ad hk)

/-- **C92, refuted for the rotation of attributes**: the error for too small a buffer contains no number at all, and it is the same
whatever the arguments, the size needed and the capacity are. -/
theorem C92_rotation_refuted (ht : 31 ≤ lib.t.bits) {a p : Option Bytes} {b : Bytes} (h : RotationAnswer lib a p b)
    {s : FState (EncryptionCache G2 Gt) (DecryptionKey K G1 G3)} (hs : (s.mem.slots .out).TooSmall b) :
    ∃ e, ((hRotateAttributes lib a p).run s).2.err = some e ∧ firstNumber e.text = none ∧
      ∀ {a' p' : Option Bytes} {b' : Bytes}, RotationAnswer lib a' p' b' →
        ∀ {s' : FState (EncryptionCache G2 Gt) (DecryptionKey K G1 G3)}, (s'.mem.slots .out).TooSmall b' →
          ((hRotateAttributes lib a' p').run s').2.err = some e := by
  have key : ∀ {a' p' : Option Bytes} {b' : Bytes}, RotationAnswer lib a' p' b' →
        ∀ {s' : FState (EncryptionCache G2 Gt) (DecryptionKey K G1 G3)}, (s'.mem.slots .out).TooSmall b' →
          ((hRotateAttributes lib a' p').run s').2.err = some (.generic (tooSmallPolicy 0 0)) := by
    intro a' p' b' h' s' hs'
    rw [hRotateAttributes_eq]
    obtain ⟨n, hn⟩ := small_error ht (rotatePayload_iff.2 h') hs'
    exact hn
  exact ⟨_, key h hs, tooSmallPolicy_says 0 0, key⟩

end

/-! ### Concrete cases -/

namespace Demo

/-- In a buffer of 10 bytes the master keys do not fit: the error tells 972. -/
example : SaysSize ((hGenerateMasterKeys ffi (some [1, 0]) drawsF 3).run (state fun _ => buf 10 10)).2 972 := by
  have h := C92_master_keys (lib := ffi) (by decide) master_answer (s := state fun _ => buf 10 10)
    ⟨_, 10, rfl, by decide, by rw [masterB_length]; decide⟩
  rwa [masterB_length] at h

/-- The text of that error. -/
example : ∃ e, ((hGenerateMasterKeys ffi (some [1, 0]) drawsF 3).run (state fun _ => buf 10 10)).2.err = some e ∧
    e.text = utf8 "FFI error: The pre-allocated master keys buffer is too small; need 972 bytes, allocated 10" := by
  have h : ((hGenerateMasterKeys ffi (some [1, 0]) drawsF 3).run (state fun _ => buf 10 10)).2.err =
      some (.generic (tooSmall "master keys" 972 10)) := by decide +kernel
  exact ⟨_, h, by decide +kernel⟩

/-- A header does not fit in 10 bytes: the error tells its size. -/
example : ∃ kb hb, HeaderAnswer ffi cache (headerArgs 1) kb hb ∧ 10 < hb.length ∧
    SaysSize ((hEncryptHeader ffi cacheArgs (headerArgs 1)).run (state fun k => if k = .header then buf 10 10 else buf 100 100)).2 hb.length := by
  obtain ⟨kb, hb, h, h1, h2, h3⟩ := header_answer
  have e10 : (10 : Int32).toInt = 10 := by decide
  have e100 : (100 : Int32).toInt = 100 := by decide
  refine ⟨kb, hb, h, h2, (C92_encrypt_header (lib := ffi) (by decide) cache_decodes h).2 ?_ ?_⟩
  · exact ⟨_, 100, rfl, by decide, by omega, by rw [List.length_replicate]; omega⟩
  · exact ⟨_, 10, rfl, by decide, by omega⟩

/-- A user key does not fit in 10 bytes: the error tells its size. -/
example : 10 < userB.length ∧ SaysSize ((hGenerateUserPrivateKey ffi (input privB) (some [1, 0]) (some [1, 0]) drawsF).run (state fun _ => buf 10 10)).2
    userB.length := by
  have h : 10 < userB.length := by decide +kernel
  have e10 : (10 : Int32).toInt = 10 := by decide
  exact ⟨h, C92_user_key (lib := ffi) (by decide) user_answer (s := state fun _ => buf 10 10) ⟨_, 10, rfl, by decide, by omega⟩⟩

/-- Neither an encrypted block nor the clear text of it fits in 2 bytes: the errors tell the sizes. -/
example : ∃ b, BlockAnswer ffi (blockArgs [1, 2, 3]) nonce b ∧
    SaysSize ((hEncryptBlock ffi (blockArgs [1, 2, 3]) nonce).run (state fun _ => buf 2 2)).2 b.length ∧
    SaysSize ((hDecryptBlock ffi (blockArgs b)).run (state fun _ => buf 2 2)).2 3 := by
  obtain ⟨b, hb⟩ : ∃ b, encryptHybridBlock symmetric maxClearTextSize key7 [1, 2, 3, 4] 5 [1, 2, 3] nonce = .ok b :=
    exists_of_isOk (by decide +kernel)
  have hb' : b = bytesOf (encryptHybridBlock symmetric maxClearTextSize key7 [1, 2, 3, 4] 5 [1, 2, 3] nonce) := by
    rw [hb]; rfl
  have hk : BytesArg (input (List.replicate 32 7)) ffi.e.keyDec key7 := ⟨_, input_isIn (by decide), by decide, by decide +kernel⟩
  have ha : BlockAnswer ffi (blockArgs [1, 2, 3]) nonce b :=
    ⟨_, _, _, hk, .inr ⟨by decide, input_isIn (by decide)⟩, input_isIn (by decide), by decide, hb⟩
  have hl : 10 < b.length ∧ b.length < 1000 := by rw [hb']; decide +kernel
  have hc : ClearBlockAnswer ffi (blockArgs b) [1, 2, 3] :=
    ⟨_, _, _, hk, .inr ⟨(by decide : 0 < (input [1, 2, 3, 4]).len.toInt), input_isIn (by decide)⟩, input_isIn (by omega), by rintro rfl; simp at hl,
      by rw [hb']; decide +kernel⟩
  have e2 : (2 : Int32).toInt = 2 := by decide
  exact ⟨b, ha, (C92_encrypt_block (lib := ffi) (by decide) ha (s := state fun _ => buf 2 2) ⟨_, 2, rfl, by decide, by omega⟩).1,
    (C92_decrypt_block (lib := ffi) (by decide) hc (s := state fun _ => buf 2 2) ⟨_, 2, rfl, by decide, by decide⟩).1⟩

/-- The bytes of a header for `[low, hr]`. -/
def headerB : Bytes :=
  match encryptHybridHeader symmetric (bls curveF) codecs .debug64 policy mkF.pubKey [low, hr] (some metadata) 5 7 nonce with
  | .ok h => h.encryptedHeaderBytes
  | _ => []

/-- Room for the symmetric key only: the error of the decryption of that header tells the size of the identifier. -/
example : SaysSize ((hDecryptHeader ffi (input headerB) (input userB)).run (state fun k => if k = .symKey then buf 32 32 else buf 2 2)).2 4 := by
  obtain ⟨key, hkey⟩ := userB_decodes
  obtain ⟨b, hb, hb0, hk⟩ := hkey
  obtain rfl := hb.unique (input_isIn (b := userB) (by have := userB_length; omega))
  have hok : (match (userKeyCodec .debug64 codecs (bls curveF)).dec userB with
    | .ok key => (match decryptHybridHeader symmetric (bls curveF) codecs .debug64 key headerB with
      | .ok h => decide (h.metaData.uid.length = 4)
      | _ => false)
    | _ => false) = true := by decide +kernel
  have hk' : (userKeyCodec .debug64 codecs (bls curveF)).dec userB = .ok key := hk
  rw [hk'] at hok
  dsimp only at hok
  have hl : headerB.length < 2 ^ 31 ∧ headerB ≠ [] := by decide +kernel
  cases hd : decryptHybridHeader symmetric (bls curveF) codecs .debug64 key headerB with
  | err e => rw [hd] at hok; cases hok
  | panic => rw [hd] at hok; cases hok
  | ok h =>
    rw [hd] at hok
    have hu : h.metaData.uid.length = 4 := of_decide_eq_true hok
    have e2 : (2 : Int32).toInt = 2 := by decide
    have e32 : (32 : Int32).toInt = 32 := by decide
    have hlen : (ffi.e.keyEnc h.symmetricKey).length = 32 := h.symmetricKey.2
    have := (C92_decrypt_header (lib := ffi) (by decide) ⟨_, hb, hb0, hk⟩ (hd := input headerB)
      ⟨h, ⟨_, input_isIn hl.1, hl.2, hd⟩, rfl, rfl, rfl⟩ (s := state fun k => if k = .symKey then buf 32 32 else buf 2 2)).2.1
      ⟨_, 32, rfl, by decide, by omega, by rw [List.length_replicate]; omega⟩ ⟨_, 2, rfl, by decide, by omega⟩
    rwa [hu] at this

/-- The example with a longer form of policies. -/
def ffiLong : FfiLib F F F F F SymKey SymNonce :=
  { ffi with serde := { ffi.serde with policyEnc := fun p => (ffi.serde.policyEnc p).map (· ++ List.replicate 200 7) } }

theorem rotation_long : RotationAnswer ffiLong (some [3, 0]) (some [1, 0]) (2 :: List.replicate 200 7) :=
  ⟨policy, [hr], rotated, policy_arg, hr_arg, rotations, rfl⟩

/-- In a buffer of 10 bytes the rotated policy does not fit: the error does not tell that 201 bytes are needed. -/
example : ∃ e, ((hRotateAttributes ffiLong (some [3, 0]) (some [1, 0])).run (state fun _ => buf 10 10)).2.err = some e ∧
    firstNumber e.text = none := by
  obtain ⟨e, h1, h2, _⟩ := C92_rotation_refuted (lib := ffiLong) (by decide) rotation_long (s := state fun _ => buf 10 10)
    ⟨_, 10, rfl, by decide, by rw [List.length_cons, List.length_replicate]; decide⟩
  exact ⟨e, h1, h2⟩

end Demo

end Abe
