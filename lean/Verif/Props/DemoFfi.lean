import Verif.Props.DemoLib
import Verif.Proofs.FfiPayload

/-!
# Concrete calls of the C interface for the examples
-/

namespace Abe.Demo

/-- The library of the examples. -/
def ffi : FfiLib F F F F F SymKey SymNonce := { Demo.lib with texts := { other := fun _ => "error", attributeText := fun a n => a ++ "::" ++ n, list := fun _ => "list" }, debug := fun _ => utf8 "Error" }

/-- A buffer of `n` bytes, of announced capacity `l`. -/
def buf (n : Nat) (l : Int32) : OutBuf := ⟨some (List.replicate n 0), some l⟩

/-- A state with the given output buffers, without caches nor error. -/
def state (f : Slot → OutBuf) : FState (EncryptionCache F F) (DecryptionKey F F F) := ⟨none, .empty, .empty, ⟨f, some 0⟩⟩

/-- The input buffer for some bytes. -/
def input (b : Bytes) : InBuf := ⟨some b, Int32.ofNat b.length⟩

theorem input_isIn {b : Bytes} (h : b.length < 2 ^ 31) : IsIn (input b) b := by
  refine ⟨[], by simp [input], ?_⟩
  exact Int32.toInt_ofNat_of_lt h

/-- The result, or nothing. -/
def bytesOf (x : Out Bytes) : Bytes :=
  match x with
  | .ok b => b
  | _ => []

theorem bytesOf_eq {x : Out Bytes} (h : (∃ b, x = .ok b)) : x = .ok (bytesOf x) := by
  obtain ⟨b, rfl⟩ := h
  rfl

/-- The master private key. -/
def privB : Bytes := bytesOf ((privKeyCodec .debug64 codecs).enc mkF.privKey)
/-- The master public key. -/
def pubB : Bytes := bytesOf ((pubKeyCodec .debug64 codecs).enc mkF.pubKey)
/-- Both, as returned. -/
def masterB : Bytes := be32 privB.length.toUInt32 ++ privB ++ pubB
/-- The user key for `ap`. -/
def userB : Bytes := bytesOf (engineGenerateUserKey (bls curveF) policy mkF.privKey ap drawsF >>=
  (userKeyCodec .debug64 codecs (bls curveF)).enc)

theorem privB_eq : (privKeyCodec .debug64 codecs).enc mkF.privKey = .ok privB := bytesOf_eq (exists_of_isOk (by decide +kernel))
theorem pubB_eq : (pubKeyCodec .debug64 codecs).enc mkF.pubKey = .ok pubB := bytesOf_eq (exists_of_isOk (by decide +kernel))
theorem userB_eq : (engineGenerateUserKey (bls curveF) policy mkF.privKey ap drawsF >>=
    (userKeyCodec .debug64 codecs (bls curveF)).enc) = .ok userB := bytesOf_eq (exists_of_isOk (by decide +kernel))
theorem privB_length : privB.length = 292 := by decide +kernel
theorem pubB_length : pubB.length = 676 := by decide +kernel
theorem userB_length : userB.length < 1000 := by decide +kernel

/-- A C string of one byte. -/
theorem strArg_demo {α : Type} {dec : Bytes → Option α} {a : α} (x : UInt8) (hx : x ≠ 0) (hv : validUtf8 [x] = true) (h : dec [x] = some a) :
    StrArg (some [x, 0]) dec a := ⟨[x], ⟨[], rfl, by simpa using hx.symm⟩, hv, h⟩

theorem policy_arg : StrArg (some [1, 0]) ffi.serde.policyDec policy := strArg_demo 1 (by decide) (by decide +kernel) rfl
theorem ap_arg : StrArg (some [1, 0]) ffi.serde.accessPolicyDec ap := strArg_demo 1 (by decide) (by decide +kernel) rfl
theorem atts_arg : StrArg (some [1, 0]) ffi.serde.attributesDec [low, hr] := strArg_demo 1 (by decide) (by decide +kernel) rfl
theorem low_arg : StrArg (some [2, 0]) ffi.serde.attributesDec [low] := strArg_demo 2 (by decide) (by decide +kernel) rfl
theorem hr_arg : StrArg (some [3, 0]) ffi.serde.attributesDec [hr] := strArg_demo 3 (by decide) (by decide +kernel) rfl

theorem masterB_length : masterB.length = 972 := by
  unfold masterB
  simp only [List.length_append, privB_length, pubB_length, be32_length]

/-- The answer to a request of master keys. -/
theorem master_answer : MasterKeysAnswer ffi (some [1, 0]) drawsF 3 masterB :=
  ⟨policy, mkF, be32 privB.length.toUInt32, privB, pubB, policy_arg, mkF_eq, privB_eq, pubB_eq, be32_length _,
    by rw [bigEndian_be32, privB_length]; decide, rfl⟩

theorem masterB_priv : (masterB.drop 4).take (bigEndian (masterB.take 4)) = privB := by
  have h : masterB.take 4 = be32 privB.length.toUInt32 := by
    unfold masterB; rw [List.append_assoc, List.take_left' (be32_length _)]
  rw [h, bigEndian_be32, toNat_toUInt32 (by rw [privB_length]; decide)]
  unfold masterB
  rw [List.append_assoc, List.drop_left' (be32_length _), List.take_left' rfl]

theorem masterB_pub : masterB.drop (4 + bigEndian (masterB.take 4)) = pubB := by
  have h : masterB.take 4 = be32 privB.length.toUInt32 := by
    unfold masterB; rw [List.append_assoc, List.take_left' (be32_length _)]
  rw [h, bigEndian_be32, toNat_toUInt32 (by rw [privB_length]; decide)]
  unfold masterB
  rw [List.drop_left' (by rw [List.length_append, be32_length])]

theorem privB_dec : (privKeyCodec .debug64 codecs).dec privB = .ok mkF.privKey := by decide +kernel
theorem pubB_dec : (pubKeyCodec .debug64 codecs).dec pubB = .ok mkF.pubKey := by decide +kernel

theorem priv_arg : BytesArg (input privB) (privKeyCodec ffi.t ffi.cs).dec mkF.privKey :=
  ⟨privB, input_isIn (by rw [privB_length]; decide), by intro h; have := privB_length; rw [h] at this; simp at this, privB_dec⟩

theorem pub_arg : BytesArg (input pubB) (pubKeyCodec ffi.t ffi.cs).dec mkF.pubKey :=
  ⟨pubB, input_isIn (by rw [pubB_length]; decide), by intro h; have := pubB_length; rw [h] at this; simp at this, pubB_dec⟩

/-- The answer to a request of a user key. -/
theorem user_answer : UserKeyAnswer ffi (input privB) (some [1, 0]) (some [1, 0]) drawsF userB := by
  obtain ⟨key, h1, h2⟩ := Res.bind_eq_ok.1 userB_eq
  exact ⟨policy, mkF.privKey, ap, key, policy_arg, priv_arg, ap_arg, h1, h2⟩

/-- The arguments for an encryption cache, and the cache. -/
def cacheArgs : EncCacheArgs := ⟨some [1, 0], input pubB⟩
def cache : EncryptionCache F F := ⟨policy, mkF.pubKey⟩
theorem cache_decodes : cacheArgs.Decodes ffi cache := ⟨policy_arg, pub_arg⟩

/-- The arguments for a header for `[low, hr]` or `[low]`. -/
def headerArgs (x : UInt8) : EncHeaderArgs F F SymNonce := ⟨some [x, 0], input [1, 2, 3, 4], input [9, 8], 5, 7, nonce⟩

theorem header_answer : ∃ kb hb, HeaderAnswer ffi cache (headerArgs 1) kb hb ∧ kb.length = 32 ∧ 10 < hb.length ∧ hb.length < 1000 := by
  have hok : (match encryptHybridHeader symmetric (bls curveF) codecs .debug64 policy mkF.pubKey [low, hr] (some metadata) 5 7 nonce with
    | .ok h => decide (10 < h.encryptedHeaderBytes.length ∧ h.encryptedHeaderBytes.length < 1000)
    | _ => false) = true := by decide +kernel
  obtain ⟨h, hh⟩ := header_exists
  rw [hh] at hok
  exact ⟨_, _, ⟨[low, hr], [1, 2, 3, 4], some [9, 8], h, atts_arg, .inr ⟨by rintro (h | h) <;> revert h <;> decide, input_isIn (by decide)⟩,
    .inr ⟨by rintro (h | h) <;> revert h <;> decide, [9, 8], input_isIn (by decide), rfl⟩, hh, rfl, rfl⟩, h.symmetricKey.2,
    of_decide_eq_true hok⟩

theorem header_low_answer : ∃ kb hb, HeaderAnswer ffi cache (headerArgs 2) kb hb ∧ hb.length < 1000 := by
  have hok : (match encryptHybridHeader symmetric (bls curveF) codecs .debug64 policy mkF.pubKey [low] (some metadata) 5 7 nonce with
    | .ok h => decide (h.encryptedHeaderBytes.length < 1000)
    | _ => false) = true := by decide +kernel
  obtain ⟨h, hh⟩ : ∃ h, encryptHybridHeader symmetric (bls curveF) codecs .debug64 policy mkF.pubKey [low] (some metadata) 5 7 nonce = .ok h :=
    exists_of_isOk (by decide +kernel)
  rw [hh] at hok
  exact ⟨_, _, ⟨[low], [1, 2, 3, 4], some [9, 8], h, low_arg, .inr ⟨by rintro (h | h) <;> revert h <;> decide, input_isIn (by decide)⟩,
    .inr ⟨by rintro (h | h) <;> revert h <;> decide, [9, 8], input_isIn (by decide), rfl⟩, hh, rfl, rfl⟩, of_decide_eq_true hok⟩

theorem _root_.Abe.BytesArg.eq {α : Type} {b : InBuf} {dec : Bytes → Out α} {a a' : α} (h : BytesArg b dec a) (h' : BytesArg b dec a') :
    a = a' := by
  obtain ⟨x, h1, _, h2⟩ := h
  obtain ⟨x', h1', _, h2'⟩ := h'
  obtain rfl := h1.unique h1'
  rw [h2] at h2'
  exact Res.ok.inj h2'

theorem userB_decodes : ∃ key, KeyDecodes ffi (input userB) key := by
  obtain ⟨key, hkey⟩ : ∃ key, (userKeyCodec .debug64 codecs (bls curveF)).dec userB = .ok key := exists_of_isOk (by decide +kernel)
  exact ⟨key, userB, input_isIn (by have := userB_length; omega), by decide +kernel, hkey⟩

end Abe.Demo
