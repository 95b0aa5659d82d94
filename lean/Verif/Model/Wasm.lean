import Verif.Model.Lib
import Verif.Model.Ffi

/-!
# The JavaScript interface

Model of /repo/src/interfaces/wasm_bindgen/generate_gpsw_keys.rs, hybrid_gpsw_aes_decryption.rs and hybrid_gpsw_aes_encryption.rs.
Random values are arguments.  A `Uint8Array` is its bytes; every error is a `JsValue` whose message is dropped.  The reservation of
capacity for the packaged master keys is not modelled.

On WebAssembly a panic is a trap: JavaScript gets an exception and may call again, but nothing is unwound, hence no lock guard is
released.  The `RwLock` around each cache map is the one of the standard library for targets without threads (not in /repo): reading
while it is held for writing, or writing while it is held at all, aborts, and a refused writing attempt marks the lock as held for
writing.
-/

namespace Abe

/-- A `JsValue` made from an error, without its message.  For example /repo/src/interfaces/wasm_bindgen/generate_gpsw_keys.rs:22. -/
inductive JsErr where
  | error
  deriving DecidableEq, Repr

/-- For example /repo/src/interfaces/wasm_bindgen/generate_gpsw_keys.rs:22. -/
abbrev JsOut (α : Type) := Res JsErr α

/-- `map_err(|e| JsValue::from_str(..))?` on results of this crate.  For example /repo/src/interfaces/wasm_bindgen/generate_gpsw_keys.rs:27. -/
def js {α : Type} (x : Out α) : JsOut α := x.mapErr fun _ => .error

/-- `map_err(|e| JsValue::from_str(..))?` on results of the other crates.  For example /repo/src/interfaces/wasm_bindgen/generate_gpsw_keys.rs:22. -/
def jsArg {α : Type} (x : Option α) : JsOut α := Res.ofOption .error x

section
variable {K G1 G2 G3 Gt Key Nonce : Type} [Field K] [DecidableEq K] (lib : Lib K G1 G2 G3 Gt Key Nonce)

/-! ## generate_gpsw_keys.rs -/

/-- `webassembly_generate_master_keys`, /repo/src/interfaces/wasm_bindgen/generate_gpsw_keys.rs:20-43. -/
def jsGenerateMasterKeys (policyBytes : Bytes) (rnd : Nat → K) (y : K) : JsOut Bytes := do
  let policy ← jsArg (lib.serde.policyDec policyBytes)
  let mk ← js (engineGenerateMasterKey lib.bm policy rnd y)
  let priv ← js ((privKeyCodec lib.t lib.cs).enc mk.privKey)
  let pub ← js ((pubKeyCodec lib.t lib.cs).enc mk.pubKey)
  .ok (be32 priv.length.toUInt32 ++ priv ++ pub)

/-- `webassembly_generate_user_private_key`, /repo/src/interfaces/wasm_bindgen/generate_gpsw_keys.rs:52-75. -/
def jsGenerateUserPrivateKey (privBytes : Bytes) (accessPolicy : String) (policyBytes : Bytes) (rnd : Nat → K) : JsOut Bytes := do
  let priv ← js ((privKeyCodec lib.t lib.cs).dec privBytes)
  let policy ← jsArg (lib.serde.policyDec policyBytes)
  let ap ← jsArg (lib.serde.accessPolicyParse accessPolicy)
  let key ← js (engineGenerateUserKey lib.bm policy priv ap rnd)
  js ((userKeyCodec lib.t lib.cs lib.bm).enc key)

/-- `webassembly_rotate_attributes`, /repo/src/interfaces/wasm_bindgen/generate_gpsw_keys.rs:84-103, the returned string as bytes.
`to_string` panics when the conversion fails. -/
def jsRotateAttributes (serde : Serde) (attributesBytes policyBytes : Bytes) : JsOut Bytes := do
  let attributes ← jsArg (serde.attributesDec attributesBytes)
  let policy ← jsArg (serde.policyDec policyBytes)
  let policy' ← foldRes (fun p a => jsArg (p.rotate a)) policy attributes
  match serde.policyEnc policy' with
  | none => .panic
  | some b => .ok b

/-! ## hybrid_gpsw_aes_decryption.rs -/

/-- `webassembly_get_encrypted_header_size`, /repo/src/interfaces/wasm_bindgen/hybrid_gpsw_aes_decryption.rs:34-52. -/
def jsGetEncryptedHeaderSize (encrypted : Bytes) : JsOut UInt32 :=
  if encrypted.length < 4 then .err .error
  else do
    let b ← slice encrypted 0 4
    .ok (ofBe32 b)

/-- The end of both header decryption functions, /repo/src/interfaces/wasm_bindgen/hybrid_gpsw_aes_decryption.rs:86-97 and 165-176. -/
def jsDecryptHeaderWith (key : DecryptionKey K G1 G3) (header : Bytes) : JsOut Bytes := do
  let h ← js (decryptHybridHeader lib.e lib.bm lib.cs lib.t key header)
  js (h.tryIntoBytes lib.e)

/-- `webassembly_decrypt_hybrid_header`, /repo/src/interfaces/wasm_bindgen/hybrid_gpsw_aes_decryption.rs:61-98. -/
def jsDecryptHybridHeader (keyBytes header : Bytes) : JsOut Bytes :=
  if keyBytes.length = 0 then .err .error
  else if header.length < 4 then .err .error
  else do
    let key ← js ((userKeyCodec lib.t lib.cs lib.bm).dec keyBytes)
    jsDecryptHeaderWith lib key header

/-- The part of `webassembly_create_decryption_cache` before the identifier is drawn,
/repo/src/interfaces/wasm_bindgen/hybrid_gpsw_aes_decryption.rs:120-132. -/
def jsPrepareDecryptionCache (keyBytes : Bytes) : JsOut (DecryptionKey K G1 G3) :=
  if keyBytes.length = 0 then .err .error
  else js ((userKeyCodec lib.t lib.cs lib.bm).dec keyBytes)

/-- `webassembly_decrypt_hybrid_block`, /repo/src/interfaces/wasm_bindgen/hybrid_gpsw_aes_decryption.rs:181-218. -/
def jsDecryptHybridBlock (e : External Key Nonce) (keyBytes : Bytes) (uid : Option Bytes) (blockNumber : Option Nat)
    (encrypted : Bytes) : JsOut Bytes :=
  if keyBytes.length ≠ 32 then .err .error
  else if encrypted.length = 0 then .err .error
  else do
    let key ← js (e.keyDec keyBytes)
    js (decryptHybridBlock e maxClearTextSize key (uid.getD []) (blockNumber.getD 0) encrypted)

/-! ## hybrid_gpsw_aes_encryption.rs -/

/-- The end of both header encryption functions, /repo/src/interfaces/wasm_bindgen/hybrid_gpsw_aes_encryption.rs:67-84 and 162-179. -/
def jsEncryptHeaderWith (policy : Policy) (pub : MasterPublicKey G2 Gt) (attributes : String) (uid : Bytes) (random : Gt) (s : K)
    (nonce : Nonce) : JsOut Bytes := do
  let attributes ← jsArg (lib.serde.attributesParse attributes)
  let h ← js (encryptHybridHeader lib.e lib.bm lib.cs lib.t policy pub attributes (some ⟨uid, none⟩) random s nonce)
  js (h.tryIntoBytes lib.e)

/-- `webassembly_encrypt_hybrid_header`, /repo/src/interfaces/wasm_bindgen/hybrid_gpsw_aes_encryption.rs:40-85. -/
def jsEncryptHybridHeader (policyBytes pubBytes : Bytes) (attributes : String) (uid : Bytes) (random : Gt) (s : K) (nonce : Nonce) :
    JsOut Bytes :=
  if policyBytes.length = 0 then .err .error
  else if pubBytes.length = 0 then .err .error
  else if uid.length = 0 then .err .error
  else if attributes.isEmpty then .err .error
  else do
    let policy ← jsArg (lib.serde.policyDec policyBytes)
    let pub ← js ((pubKeyCodec lib.t lib.cs).dec pubBytes)
    jsEncryptHeaderWith lib policy pub attributes uid random s nonce

/-- The part of `webassembly_create_encryption_cache` before the identifier is drawn,
/repo/src/interfaces/wasm_bindgen/hybrid_gpsw_aes_encryption.rs:109-128. -/
def jsPrepareEncryptionCache (policyBytes pubBytes : Bytes) : JsOut (EncryptionCache G2 Gt) :=
  if policyBytes.length = 0 then .err .error
  else if pubBytes.length = 0 then .err .error
  else do
    let policy ← jsArg (lib.serde.policyDec policyBytes)
    let pub ← js ((pubKeyCodec lib.t lib.cs).dec pubBytes)
    .ok { policy := policy, publicKey := pub }

/-- `webassembly_encrypt_hybrid_block`, /repo/src/interfaces/wasm_bindgen/hybrid_gpsw_aes_encryption.rs:184-221. -/
def jsEncryptHybridBlock (e : External Key Nonce) (keyBytes : Bytes) (uid : Option Bytes) (blockNumber : Option Nat)
    (data : Bytes) (nonce : Nonce) : JsOut Bytes :=
  if keyBytes.length ≠ 32 then .err .error
  else if data.length = 0 then .err .error
  else do
    let key ← js (e.keyDec keyBytes)
    js (encryptHybridBlock e maxClearTextSize key (uid.getD []) (blockNumber.getD 0) data nonce)

/-! ## The caches -/

/-- The state of a `RwLock`.
/repo/src/interfaces/wasm_bindgen/hybrid_gpsw_aes_encryption.rs:88-92 and /repo/src/interfaces/wasm_bindgen/hybrid_gpsw_aes_decryption.rs:101-105. -/
inductive LockMode where
  | held (readers : Nat)
  | writing
  deriving DecidableEq, Repr

/-- A static cache map with its lock and its counter of identifiers,
/repo/src/interfaces/wasm_bindgen/hybrid_gpsw_aes_encryption.rs:88-92 and hybrid_gpsw_aes_decryption.rs:101-105. -/
structure JsCaches (α : Type) where
  reg : Registry α
  lock : LockMode

/-- /repo/src/interfaces/wasm_bindgen/hybrid_gpsw_aes_encryption.rs:88-92 and /repo/src/interfaces/wasm_bindgen/hybrid_gpsw_aes_decryption.rs:101-105. -/
def JsCaches.empty {α : Type} : JsCaches α := ⟨.empty, .held 0⟩

/-- A call holding the lock for reading during `f`: the guard is released on return, not on a panic.
/repo/src/interfaces/wasm_bindgen/hybrid_gpsw_aes_encryption.rs:153-155 and /repo/src/interfaces/wasm_bindgen/hybrid_gpsw_aes_decryption.rs:156-158. -/
def JsCaches.read {α β : Type} (f : Registry α → JsOut β) (s : JsCaches α) : JsOut β × JsCaches α :=
  match s.lock with
  | .writing => (.panic, s)
  | .held n =>
    match f s.reg with
    | .panic => (.panic, { s with lock := .held (n + 1) })
    | r => (r, s)

/-- Changing the map with the lock held for writing.
/repo/src/interfaces/wasm_bindgen/hybrid_gpsw_aes_encryption.rs:130-134 and 139-143 and /repo/src/interfaces/wasm_bindgen/hybrid_gpsw_aes_decryption.rs:134-138 and 143-147. -/
def JsCaches.write {α β : Type} (f : Registry α → Registry α) (b : β) (s : JsCaches α) : JsOut β × JsCaches α :=
  if s.lock = .held 0 then (.ok b, { s with reg := f s.reg }) else (.panic, { s with lock := .writing })

/-- `fetch_add`, `write`, `insert`: the end of `webassembly_create_encryption_cache` and `webassembly_create_decryption_cache`,
/repo/src/interfaces/wasm_bindgen/hybrid_gpsw_aes_encryption.rs:129-134 and hybrid_gpsw_aes_decryption.rs:133-138. -/
def JsCaches.create {α : Type} (cache : JsOut α) (s : JsCaches α) : JsOut Int32 × JsCaches α :=
  match cache with
  | .err e => (.err e, s)
  | .panic => (.panic, s)
  | .ok c => JsCaches.write (fun r => r.insert s.reg.next c) s.reg.next { s with reg := s.reg.fetchAdd.2 }

/-- `webassembly_destroy_encryption_cache` and `webassembly_destroy_decryption_cache`,
/repo/src/interfaces/wasm_bindgen/hybrid_gpsw_aes_encryption.rs:138-144 and hybrid_gpsw_aes_decryption.rs:142-148. -/
def JsCaches.destroy {α : Type} (handle : Int32) (s : JsCaches α) : JsOut Unit × JsCaches α :=
  JsCaches.write (fun r => r.remove handle) () s

/-- `map.get(&cache_handle).expect(..)` and the use of the cache.
/repo/src/interfaces/wasm_bindgen/hybrid_gpsw_aes_encryption.rs:156-158 and /repo/src/interfaces/wasm_bindgen/hybrid_gpsw_aes_decryption.rs:159-161. -/
def JsCaches.use {α β : Type} (handle : Int32) (f : α → JsOut β) (s : JsCaches α) : JsOut β × JsCaches α :=
  JsCaches.read (fun r => match r.get handle with
    | none => .panic
    | some c => f c) s

/-- The static variables.
/repo/src/interfaces/wasm_bindgen/hybrid_gpsw_aes_encryption.rs:88-92 and /repo/src/interfaces/wasm_bindgen/hybrid_gpsw_aes_decryption.rs:101-105. -/
structure JsState (K G1 G2 G3 Gt : Type) where
  enc : JsCaches (EncryptionCache G2 Gt)
  dec : JsCaches (DecryptionKey K G1 G3)

/-- /repo/src/interfaces/wasm_bindgen/hybrid_gpsw_aes_encryption.rs:88-92 and /repo/src/interfaces/wasm_bindgen/hybrid_gpsw_aes_decryption.rs:101-105. -/
def JsState.init {K G1 G2 G3 Gt : Type} : JsState K G1 G2 G3 Gt := ⟨.empty, .empty⟩

/-- The functions using the static variables, with their arguments and random values.
/repo/src/interfaces/wasm_bindgen/hybrid_gpsw_aes_encryption.rs:108-180 and /repo/src/interfaces/wasm_bindgen/hybrid_gpsw_aes_decryption.rs:114-177. -/
inductive JsCall (K Gt Nonce : Type) where
  | createEncryptionCache (policy pub : Bytes)
  | destroyEncryptionCache (handle : Int32)
  | encryptHeaderUsingCache (handle : Int32) (attributes : String) (uid : Bytes) (random : Gt) (s : K) (nonce : Nonce)
  | createDecryptionCache (key : Bytes)
  | destroyDecryptionCache (handle : Int32)
  | decryptHeaderUsingCache (handle : Int32) (header : Bytes)

/-- What they return.
/repo/src/interfaces/wasm_bindgen/hybrid_gpsw_aes_encryption.rs:108-180 and /repo/src/interfaces/wasm_bindgen/hybrid_gpsw_aes_decryption.rs:114-177. -/
inductive JsVal where
  | unit
  | handle (h : Int32)
  | bytes (b : Bytes)
  deriving DecidableEq, Repr

/-- `webassembly_encrypt_hybrid_header_using_cache`, /repo/src/interfaces/wasm_bindgen/hybrid_gpsw_aes_encryption.rs:148-180. -/
def jsEncryptHeaderUsingCache (handle : Int32) (attributes : String) (uid : Bytes) (random : Gt) (s : K) (nonce : Nonce) :
    JsCaches (EncryptionCache G2 Gt) → JsOut Bytes × JsCaches (EncryptionCache G2 Gt) :=
  JsCaches.use handle fun c => jsEncryptHeaderWith lib c.policy c.publicKey attributes uid random s nonce

/-- `webassembly_decrypt_hybrid_header_using_cache`, /repo/src/interfaces/wasm_bindgen/hybrid_gpsw_aes_decryption.rs:152-177. -/
def jsDecryptHeaderUsingCache (handle : Int32) (header : Bytes) :
    JsCaches (DecryptionKey K G1 G3) → JsOut Bytes × JsCaches (DecryptionKey K G1 G3) :=
  JsCaches.use handle fun key => jsDecryptHeaderWith lib key header

/-- The outcome of a call.
/repo/src/interfaces/wasm_bindgen/hybrid_gpsw_aes_encryption.rs:108-180 and /repo/src/interfaces/wasm_bindgen/hybrid_gpsw_aes_decryption.rs:114-177. -/
def JsCall.run (st : JsState K G1 G2 G3 Gt) : JsCall K Gt Nonce → JsOut JsVal × JsState K G1 G2 G3 Gt
  | .createEncryptionCache policy pub =>
    let r := JsCaches.create (jsPrepareEncryptionCache lib policy pub) st.enc
    (JsVal.handle <$> r.1, { st with enc := r.2 })
  | .destroyEncryptionCache h =>
    let r := JsCaches.destroy h st.enc
    ((fun _ => JsVal.unit) <$> r.1, { st with enc := r.2 })
  | .encryptHeaderUsingCache h attributes uid random s nonce =>
    let r := jsEncryptHeaderUsingCache lib h attributes uid random s nonce st.enc
    (JsVal.bytes <$> r.1, { st with enc := r.2 })
  | .createDecryptionCache key =>
    let r := JsCaches.create (jsPrepareDecryptionCache lib key) st.dec
    (JsVal.handle <$> r.1, { st with dec := r.2 })
  | .destroyDecryptionCache h =>
    let r := JsCaches.destroy h st.dec
    ((fun _ => JsVal.unit) <$> r.1, { st with dec := r.2 })
  | .decryptHeaderUsingCache h header =>
    let r := jsDecryptHeaderUsingCache lib h header st.dec
    (JsVal.bytes <$> r.1, { st with dec := r.2 })

/-- The state after a sequence of calls.
/repo/src/interfaces/wasm_bindgen/hybrid_gpsw_aes_encryption.rs:108-180 and /repo/src/interfaces/wasm_bindgen/hybrid_gpsw_aes_decryption.rs:114-177. -/
def jsRun (st : JsState K G1 G2 G3 Gt) (calls : List (JsCall K Gt Nonce)) : JsState K G1 G2 G3 Gt :=
  calls.foldl (fun st c => (c.run lib st).2) st

end

end Abe
