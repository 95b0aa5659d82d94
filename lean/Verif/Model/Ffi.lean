import Verif.Model.Lib
import Verif.Model.Errors

/-!
# The C interface

Model of /repo/src/interfaces/ffi (error.rs, generate_gpsw_keys.rs, hybrid_gpsw_aes.rs).

A foreign function is a program (`Prog`) over the memory of its caller, the last error of its thread and the two cache registries of the
process.  Simplifications:

* Pointers: a data pointer is `none` when null, otherwise the bytes from that address to the end of the allocation.  Different arguments do
  not overlap.  Reading or writing outside an allocation, and dereferencing a null pointer, is the outcome `ub`.
* A Rust panic in an `extern "C"` function is the outcome `panic`.
* Random values (and nonces) drawn during a call are arguments of the call.
* The text of an error message which includes another error value is built with `display` (`{}`), which is that of `Errors` for the errors of this crate, and
  the parameter `debug` (`{:?}`).
-/

namespace Abe

/-- The UTF-8 bytes of a string.
`String::as_bytes`, used at /repo/src/interfaces/ffi/generate_gpsw_keys.rs:270; messages are strings, /repo/src/interfaces/ffi/error.rs:10-19. -/
def utf8 (s : String) : Bytes := s.toByteArray.data.toList

/-- `std::str::from_utf8(..).is_ok()`.  `CStr::to_str`, used at /repo/src/interfaces/ffi/error.rs:146 and /repo/src/interfaces/ffi/generate_gpsw_keys.rs:44. -/
def validUtf8 (b : Bytes) : Bool := ByteArray.validateUTF8 ⟨b.toArray⟩

/-- `FfiError`, /repo/src/interfaces/ffi/error.rs:10-19 (`Deserialize` is never constructed).  Messages are UTF-8 bytes. -/
inductive FfiError where
  | nullPointer (msg : Bytes)
  | generic (msg : Bytes)
  deriving DecidableEq, Repr

/-- `Display` of `FfiError`, /repo/src/interfaces/ffi/error.rs:11-14. -/
def FfiError.text : FfiError → Bytes
  | .nullPointer m => utf8 "Invalid NULL pointer passed for: " ++ m
  | .generic m => utf8 "FFI error: " ++ m

/-- An output buffer: the memory behind its pointer and the integer behind its length pointer.
For example `master_keys_ptr` and `master_keys_len`, /repo/src/interfaces/ffi/generate_gpsw_keys.rs:26-27. -/
structure OutBuf where
  mem : Option Bytes
  len : Option Int32
  deriving DecidableEq, Repr

/-- An input buffer: the memory behind its pointer and its announced length.
For example `master_private_key_ptr` and `master_private_key_len`, /repo/src/interfaces/ffi/generate_gpsw_keys.rs:103-104. -/
structure InBuf where
  mem : Option Bytes
  len : Int32
  deriving DecidableEq, Repr

/-- The output buffers of the foreign functions: `out` is the only one of the functions having one (master keys, user key, policy,
block, error message).
The parameters at /repo/src/interfaces/ffi/generate_gpsw_keys.rs:26-27, 101-102 and 205-206, /repo/src/interfaces/ffi/hybrid_gpsw_aes.rs:130-133, 246-249, 454-459, 586-591, 703-704 and 775-776, and /repo/src/interfaces/ffi/error.rs:165-166. -/
inductive Slot where
  | out | symKey | header | uid | additional
  deriving DecidableEq, Repr

/-- The memory of the caller of a foreign function which the function may write: buffers and the integer behind `cache_handle`.
The integer is that of /repo/src/interfaces/ffi/hybrid_gpsw_aes.rs:69 and 397. -/
structure CMem where
  slots : Slot → OutBuf
  handle : Option Int32

/-- A static cache map with its counter of identifiers, /repo/src/interfaces/ffi/hybrid_gpsw_aes.rs:44-48 and 373-377. -/
structure Registry (α : Type) where
  next : Int32
  map : List (Int32 × α)

/-- `AtomicI32::new(0)` and `HashMap::new()`.  /repo/src/interfaces/ffi/hybrid_gpsw_aes.rs:44-48 and 373-377. -/
def Registry.empty {α : Type} : Registry α := ⟨0, []⟩

/-- What a foreign call can access: the last error of its thread, the registries and the memory of the caller.
/repo/src/interfaces/ffi/error.rs:126-129 and /repo/src/interfaces/ffi/hybrid_gpsw_aes.rs:44-48 and 373-377. -/
structure FState (E D : Type) where
  err : Option FfiError
  enc : Registry E
  dec : Registry D
  mem : CMem

/-- How a part of a foreign function ends: normally, with `return code`, with a panic, or with an undefined behaviour.
Codes are those of the macros, /repo/src/interfaces/ffi/error.rs:30-124. -/
inductive Flow (α : Type) where
  | next (a : α)
  | ret (code : Int32)
  | panic
  | ub
  deriving DecidableEq, Repr

/-- A part of a foreign function.  The functions are those of /repo/src/interfaces/ffi/. -/
def Prog (E D α : Type) := FState E D → Flow α × FState E D

namespace Prog
variable {E D α β : Type}

protected def pure (a : α) : Prog E D α := fun s => (.next a, s)

protected def bind (x : Prog E D α) (f : α → Prog E D β) : Prog E D β := fun s =>
  match x s with
  | (.next a, s') => f a s'
  | (.ret c, s') => (.ret c, s')
  | (.panic, s') => (.panic, s')
  | (.ub, s') => (.ub, s')

/-- Sequencing of statements, in the functions of /repo/src/interfaces/ffi/. -/
instance : Monad (Prog E D) where
  pure := Prog.pure
  bind := Prog.bind

/-- `return code`.  For example /repo/src/interfaces/ffi/error.rs:170. -/
def ret (code : Int32) : Prog E D α := fun s => (.ret code, s)
/-- A panic.  For example `expect` at /repo/src/interfaces/ffi/hybrid_gpsw_aes.rs:107. -/
def panicked : Prog E D α := fun s => (.panic, s)
/-- An undefined behaviour.  The functions are `unsafe` and rely on their callers, /repo/src/interfaces/ffi/hybrid_gpsw_aes.rs:62-67. -/
def undefined : Prog E D α := fun s => (.ub, s)

/-- `set_last_error`, /repo/src/interfaces/ffi/error.rs:132-136. -/
def setLastError (e : FfiError) : Prog E D Unit := fun s => (.next (), { s with err := some e })

/-- `ffi_bail!`, /repo/src/interfaces/ffi/error.rs:111-124, and the equivalent `set_last_error(..); return 1`. -/
def bail (msg : Bytes) : Prog E D α := do
  setLastError (.generic msg)
  ret 1

/-- `ffi_not_null!`, /repo/src/interfaces/ffi/error.rs:31-40. -/
def notNull (p : Option Bytes) (msg : String) : Prog E D Unit :=
  if p.isNone then do
    setLastError (.nullPointer (utf8 msg))
    ret 1
  else pure ()

/-- `ffi_unwrap!`, /repo/src/interfaces/ffi/error.rs:46-69, and the equivalent `match .. Err(e) => ffi_bail!(..)`; `msg` is the message
for the error. -/
def unwrap (msg : FormatErr → Bytes) : Out α → Prog E D α
  | .ok a => pure a
  | .err e => bail (msg e)
  | .panic => panicked

/-- The same for a result of another crate.  For example /repo/src/interfaces/ffi/generate_gpsw_keys.rs:53. -/
def unwrapOpt (msg : Bytes) : Option α → Prog E D α
  | some a => pure a
  | none => bail msg

/-- `*len` for the length pointer of an output buffer.  For example /repo/src/interfaces/ffi/generate_gpsw_keys.rs:36 and 74. -/
def readLen (k : Slot) : Prog E D Int32 := fun s =>
  match (s.mem.slots k).len with
  | some n => (.next n, s)
  | none => (.ub, s)

/-- The pointer of an output buffer.  For example /repo/src/interfaces/ffi/generate_gpsw_keys.rs:32. -/
def outPtr (k : Slot) : Prog E D (Option Bytes) := fun s => (.next (s.mem.slots k).mem, s)

/-- Replacement of an output buffer in the memory of the caller.
Used for the assignments and copies at /repo/src/interfaces/ffi/generate_gpsw_keys.rs:75-84 and similar. -/
def _root_.Abe.FState.setSlot (s : FState E D) (k : Slot) (b : OutBuf) : FState E D :=
  { s with mem := { s.mem with slots := fun k' => if k' = k then b else s.mem.slots k' } }

/-- `*len = n` for the length pointer of an output buffer.  For example /repo/src/interfaces/ffi/generate_gpsw_keys.rs:75. -/
def writeLen (k : Slot) (n : Int32) : Prog E D Unit := fun s =>
  match (s.mem.slots k).len with
  | some _ => (.next (), s.setSlot k { s.mem.slots k with len := some n })
  | none => (.ub, s)

/-- `std::slice::from_raw_parts_mut(ptr, len).copy_from_slice(bytes)` where `len` is the length of `bytes`.
For example /repo/src/interfaces/ffi/generate_gpsw_keys.rs:83-84. -/
def copy (k : Slot) (bytes : Bytes) : Prog E D Unit := fun s =>
  match (s.mem.slots k).mem with
  | some m =>
    if bytes.length ≤ m.length then (.next (), s.setSlot k { s.mem.slots k with mem := some (bytes ++ m.drop bytes.length) })
    else (.ub, s)
  | none => (.ub, s)

/-- `std::slice::from_raw_parts(ptr, len as usize)`; a negative length is cast to more than `isize::MAX`.
For example /repo/src/interfaces/ffi/generate_gpsw_keys.rs:132-135. -/
def readIn (b : InBuf) : Prog E D Bytes :=
  match b.mem with
  | some m => if 0 ≤ b.len.toInt ∧ b.len.toInt.toNat ≤ m.length then pure (m.take b.len.toInt.toNat) else undefined
  | none => undefined

/-- `CStr::from_ptr(p)`: the bytes before the first NUL.  For example /repo/src/interfaces/ffi/generate_gpsw_keys.rs:44. -/
def readCStr (p : Option Bytes) : Prog E D Bytes :=
  match p with
  | some m => if 0 ∈ m then pure (m.takeWhile (· ≠ 0)) else undefined
  | none => undefined

/-- `match CStr::from_ptr(p).to_str() { Ok(msg) => msg.to_owned(), Err(_) => .. return 1 }`.
For example /repo/src/interfaces/ffi/generate_gpsw_keys.rs:44-52. -/
def readStr (p : Option Bytes) (msg : Bytes) : Prog E D Bytes := do
  let b ← readCStr p
  if validUtf8 b then pure b else bail msg

/-- The end of a call: normal end is `return`.  The functions are those of /repo/src/interfaces/ffi/. -/
def finish (x : Flow Int32 × FState E D) : Flow Int32 × FState E D :=
  match x.1 with
  | .next c => (.ret c, x.2)
  | _ => x

/-- Call of a foreign function.  The functions are those of /repo/src/interfaces/ffi/. -/
def run (p : Prog E D Int32) (s : FState E D) : Flow Int32 × FState E D := finish (p s)

end Prog

/-- `n as usize` for a `c_int` (sign extension).  For example /repo/src/interfaces/ffi/generate_gpsw_keys.rs:76 and 134. -/
def asUsize (t : Target) (n : Int32) : Nat := (n.toInt % (t.modulus : Int)).toNat

/-- `n as c_int` for a `usize` (truncation).  For example /repo/src/interfaces/ffi/generate_gpsw_keys.rs:75. -/
def asCInt (n : Nat) : Int32 := Int32.ofNat n

/-- The fields of `EncryptionCache`, /repo/src/interfaces/ffi/hybrid_gpsw_aes.rs:52-55. -/
structure EncryptionCache (G2 Gt : Type) where
  policy : Policy
  publicKey : MasterPublicKey G2 Gt

/-- The context of the C interface.  The modules at /repo/src/interfaces/ffi/. -/
structure FfiLib (K G1 G2 G3 Gt Key Nonce : Type) extends Lib K G1 G2 G3 Gt Key Nonce where
  /-- texts of other crates -/
  texts : Texts
  /-- an error in a message with `{:?}` (`none`: an error of another crate) -/
  debug : Option FormatErr → Bytes

/-- An error in a message with `{}` (`none`: an error of another crate which is not converted).  In /repo/src/interfaces/ffi/error.rs:52 and 63. -/
def FfiLib.display {K G1 G2 G3 Gt Key Nonce : Type} (lib : FfiLib K G1 G2 G3 Gt Key Nonce) : Option FormatErr → Bytes
  | none => utf8 (lib.texts.other none)
  | some e => utf8 (e.text lib.texts)

/-- Arguments of `h_aes_create_encryption_cache`.  /repo/src/interfaces/ffi/hybrid_gpsw_aes.rs:68-73. -/
structure EncCacheArgs where
  policy : Option Bytes
  publicKey : InBuf

/-- Arguments common to the two functions encrypting a header, and the random values of the call.
/repo/src/interfaces/ffi/hybrid_gpsw_aes.rs:134-139 and 250-257. -/
structure EncHeaderArgs (K Gt Nonce : Type) where
  attributes : Option Bytes
  uid : InBuf
  additional : InBuf
  random : Gt
  s : K
  nonce : Nonce

/-- Arguments of the block functions.  /repo/src/interfaces/ffi/hybrid_gpsw_aes.rs:702-712 and 774-784. -/
structure BlockArgs where
  key : InBuf
  uid : InBuf
  blockNumber : Int32
  data : InBuf

open Prog

/-! ## error.rs -/

section
variable {E D : Type}

/-- `set_error`, /repo/src/interfaces/ffi/error.rs:144-158. -/
def hSetError (msg : Option Bytes) : Prog E D Int32 := do
  notNull msg "error message"
  let m ← readStr msg (utf8 "sse_client_update: invalid error message")
  setLastError (.generic m)
  return 0

/-- `LAST_ERROR.with(|prev| prev.borrow_mut().take())`, /repo/src/interfaces/ffi/error.rs:180. -/
def takeLastError : Prog E D (Option FfiError) := fun s => (.next s.err, { s with err := none })

/-- `get_last_error`, /repo/src/interfaces/ffi/error.rs:164-207 (the messages printed on the standard error are dropped).  `CString::new`
refuses a text containing a NUL. -/
def hGetLastError (display : Option FormatErr → Bytes) : Prog E D Int32 := do
  let p ← outPtr .out
  if p.isNone then ret 1
  else
    let s : FState E D ← (fun s => (.next s, s))
    if (s.mem.slots .out).len.isNone then ret 1
    else
      let n ← readLen .out
      if n.toInt < 1 then ret 1
      else
        let e ← takeLastError
        let text := (e.map FfiError.text).getD []
        if 0 ∈ text then bail (utf8 "failed to convert error to CString: " ++ display none)
        else
          let actual := min (n.toInt.toNat - 1) text.length
          copy .out (text.take actual ++ List.replicate (n.toInt.toNat - actual) 0)
          writeLen .out (asCInt actual)
          return 0

/-! ## Output protocol -/

/-- The way most functions return bytes, for example /repo/src/interfaces/ffi/generate_gpsw_keys.rs:73-84; `what` is the message. -/
def writeOut (t : Target) (k : Slot) (what : Nat → Int32 → Bytes) (bytes : Bytes) : Prog E D Unit := do
  let allocated ← readLen k
  writeLen k (asCInt bytes.length)
  if asUsize t allocated < bytes.length then bail (what bytes.length allocated)
  else copy k bytes

/-- The way the block functions return bytes, /repo/src/interfaces/ffi/hybrid_gpsw_aes.rs:755-766 and 831-842. -/
def writeBlock (t : Target) (what : Nat → Bytes) (bytes : Bytes) : Prog E D Unit := do
  let allocated ← readLen .out
  if asUsize t allocated < bytes.length then bail (what bytes.length)
  else do
    copy .out bytes
    writeLen .out (asCInt bytes.length)

/-- `ffi_not_null!(ptr, ..); if *len == 0 { ffi_bail!(..) }` for an output buffer.  For example /repo/src/interfaces/ffi/generate_gpsw_keys.rs:32-38. -/
def checkOut (k : Slot) (null empty : String) : Prog E D Unit := do
  let p ← outPtr k
  notNull p null
  let n ← readLen k
  if n = 0 then bail (utf8 empty) else pure ()

/-- `ffi_not_null!(ptr, ..); if len == 0 { ffi_bail!(..) }` for an input buffer.  For example /repo/src/interfaces/ffi/generate_gpsw_keys.rs:117-123. -/
def checkIn (b : InBuf) (null empty : String) : Prog E D Unit := do
  notNull b.mem null
  if b.len = 0 then bail (utf8 empty) else pure ()

end

section
variable {K G1 G2 G3 Gt Key Nonce : Type} [Field K] [DecidableEq K] (lib : FfiLib K G1 G2 G3 Gt Key Nonce)

/-- Foreign functions of this library.  Those of /repo/src/interfaces/ffi/. -/
abbrev Foreign (K G1 G2 G3 Gt : Type) [Field K] (α : Type) := Prog (EncryptionCache G2 Gt) (DecryptionKey K G1 G3) α

/-- `ffi_unwrap!(x)`.  /repo/src/interfaces/ffi/error.rs:45-69. -/
def FfiLib.unwrap {α : Type} (x : Out α) : Foreign K G1 G2 G3 Gt α :=
  Prog.unwrap (fun e => lib.display (some e)) x

/-- `ffi_unwrap!(serde_json::from_str(..))`.  For example /repo/src/interfaces/ffi/generate_gpsw_keys.rs:53. -/
def FfiLib.json {α : Type} (x : Option α) : Foreign K G1 G2 G3 Gt α :=
  Prog.unwrapOpt (lib.display none) x

/-! ## generate_gpsw_keys.rs -/

/-- Bytes returned by `h_generate_master_keys`, /repo/src/interfaces/ffi/generate_gpsw_keys.rs:65-69. -/
def masterKeysBytes (priv pub : Bytes) : Bytes := be32 priv.length.toUInt32 ++ priv ++ pub

/-- "The pre-allocated .. buffer is too small; need {} bytes, allocated {}".  /repo/src/interfaces/ffi/generate_gpsw_keys.rs:77-81, 184-188 and 264-267. -/
def tooSmall (what : String) (need : Nat) (allocated : Int32) : Bytes :=
  utf8 ("The pre-allocated " ++ what ++ " buffer is too small; need " ++ toString need ++ " bytes, allocated " ++ toString allocated.toInt)

/-- "The pre-allocated .. buffer is too small; need {} bytes".  /repo/src/interfaces/ffi/hybrid_gpsw_aes.rs:217-220, 229-232, 345-348, 357-360 and 507-510. -/
def tooSmall' (what : String) (need : Nat) (_ : Int32) : Bytes :=
  utf8 ("The pre-allocated " ++ what ++ " buffer is too small; need " ++ toString need ++ " bytes")

/-- The message of `h_rotate_attributes` for a small buffer, /repo/src/interfaces/ffi/generate_gpsw_keys.rs:264-267: `ffi_bail!` does not
format a message given without arguments (/repo/src/interfaces/ffi/error.rs:112-115), so the placeholders stay. -/
def tooSmallPolicy (_ : Nat) (_ : Int32) : Bytes :=
  utf8 "The pre-allocated output policy buffer is too small; need {len} bytes, allocated {allocated}"

/-- `h_generate_master_keys`, /repo/src/interfaces/ffi/generate_gpsw_keys.rs:25-87. -/
def hGenerateMasterKeys (policy : Option Bytes) (rnd : Nat → K) (y : K) : Foreign K G1 G2 G3 Gt Int32 := do
  checkOut .out "Master keys pointer should point to pre-allocated memory" "The master keys buffer should have a size greater than zero"
  notNull policy "Policy pointer should not be null"
  let policy ← readStr policy (utf8 "ABE keys generation: invalid Policy")
  let policy ← lib.json (lib.serde.policyDec policy)
  let mk ← lib.unwrap (engineGenerateMasterKey lib.bm policy rnd y)
  let priv ← lib.unwrap ((privKeyCodec lib.t lib.cs).enc mk.privKey)
  let pub ← lib.unwrap ((pubKeyCodec lib.t lib.cs).enc mk.pubKey)
  writeOut lib.t .out (tooSmall "master keys") (masterKeysBytes priv pub)
  return 0

/-- `h_generate_user_private_key`, /repo/src/interfaces/ffi/generate_gpsw_keys.rs:100-194. -/
def hGenerateUserPrivateKey (priv : InBuf) (accessPolicy policy : Option Bytes) (rnd : Nat → K) : Foreign K G1 G2 G3 Gt Int32 := do
  checkOut .out "User private key pointer should point to pre-allocated memory"
    "The user private key buffer should have a size greater than zero"
  checkIn priv "Master private key pointer should not be null" "The master private key should not be empty"
  notNull accessPolicy "Access Policy pointer should not be null"
  notNull policy "Policy pointer should not be null"
  let priv ← readIn priv
  let priv ← lib.unwrap ((privKeyCodec lib.t lib.cs).dec priv)
  let ap ← readStr accessPolicy (utf8 "ABE keys generation: invalid Policy")
  let ap ← lib.json (lib.serde.accessPolicyDec ap)
  let policy ← readStr policy (utf8 "ABE keys generation: invalid Policy")
  let policy ← lib.json (lib.serde.policyDec policy)
  let key ← lib.unwrap (engineGenerateUserKey lib.bm policy priv ap rnd)
  let bytes ← lib.unwrap ((userKeyCodec lib.t lib.cs lib.bm).enc key)
  writeOut lib.t .out (tooSmall "user private key") bytes
  return 0

/-- The loop of `h_rotate_attributes`, /repo/src/interfaces/ffi/generate_gpsw_keys.rs:250-252. -/
def ffiRotate (policy : Policy) : List Attribute → Foreign K G1 G2 G3 Gt Policy
  | [] => pure policy
  | a :: as => do
    let policy ← lib.json (policy.rotate a)
    ffiRotate policy as

/-- `h_rotate_attributes`, /repo/src/interfaces/ffi/generate_gpsw_keys.rs:204-273.  `policy.to_string()` is the JSON of the policy, and
panics if that fails (`Display` of `abe_policy`). -/
def hRotateAttributes (attributes policy : Option Bytes) : Foreign K G1 G2 G3 Gt Int32 := do
  checkOut .out "New policy pointer should point to pre-allocated memory" "The new policy buffer should not be empty"
  notNull attributes "Attributes pointer should not be null"
  notNull policy "Policy pointer should not be null"
  let attributes ← readStr attributes (utf8 "GPSW attributes rotation: invalid Attributes: " ++ lib.display none)
  let attributes ← lib.json (lib.serde.attributesDec attributes)
  let policy ← readStr policy (utf8 "GPSW keys generation: invalid Policy: " ++ lib.display none)
  let policy ← lib.json (lib.serde.policyDec policy)
  let policy ← ffiRotate lib policy attributes
  match lib.serde.policyEnc policy with
  | none => panicked
  | some bytes =>
    writeOut lib.t .out tooSmallPolicy bytes
    return 0

/-! ## hybrid_gpsw_aes.rs: encryption -/

/-- The part of `h_aes_create_encryption_cache` before the identifier is drawn, /repo/src/interfaces/ffi/hybrid_gpsw_aes.rs:74-103. -/
def prepareEncryptionCache (a : EncCacheArgs) : Foreign K G1 G2 G3 Gt (EncryptionCache G2 Gt) := do
  notNull a.policy "Policy pointer should not be null"
  checkIn a.publicKey "Public key pointer should not be null" "The public key should not be empty"
  let policy ← readStr a.policy (utf8 "Hybrid Cipher: invalid Policy")
  let policy ← Prog.unwrapOpt (utf8 "Hybrid Cipher: invalid Policy: " ++ lib.debug none) (lib.serde.policyDec policy)
  let bytes ← readIn a.publicKey
  let publicKey ← Prog.unwrap (fun e => utf8 "Hybrid Cipher: invalid public key: " ++ lib.debug (some e))
    ((pubKeyCodec lib.t lib.cs).dec bytes)
  return { policy := policy, publicKey := publicKey }

/-- `fetch_add(1)` on the counter of a registry: wraps.  /repo/src/interfaces/ffi/hybrid_gpsw_aes.rs:104 and 424. -/
def Registry.fetchAdd {α : Type} (r : Registry α) : Int32 × Registry α := (r.next, { r with next := r.next + 1 })

/-- `map.insert(id, cache)`.  /repo/src/interfaces/ffi/hybrid_gpsw_aes.rs:108 and 428. -/
def Registry.insert {α : Type} (r : Registry α) (id : Int32) (a : α) : Registry α := { r with map := hinsert r.map id a }

/-- `map.remove(&id)`.  /repo/src/interfaces/ffi/hybrid_gpsw_aes.rs:121 and 441. -/
def Registry.remove {α : Type} (r : Registry α) (id : Int32) : Registry α := { r with map := hremove r.map id }

/-- `map.get(&id)`.  /repo/src/interfaces/ffi/hybrid_gpsw_aes.rs:160 and 487. -/
def Registry.get {α : Type} (r : Registry α) (id : Int32) : Option α := hget r.map id

/-- `*cache_handle = id; 0`: the pointer is not checked.  /repo/src/interfaces/ffi/hybrid_gpsw_aes.rs:109-110 and 429-430. -/
def writeHandle {E D : Type} (id : Int32) : Prog E D Int32 := fun s =>
  match s.mem.handle with
  | some _ => (.next 0, { s with mem := { s.mem with handle := some id } })
  | none => (.ub, s)

/-- `h_aes_create_encryption_cache`, /repo/src/interfaces/ffi/hybrid_gpsw_aes.rs:68-111, without interference of other threads. -/
def hCreateEncryptionCache (a : EncCacheArgs) : Foreign K G1 G2 G3 Gt Int32 := do
  let cache ← prepareEncryptionCache lib a
  let id ← (fun s => (.next s.enc.fetchAdd.1, { s with enc := s.enc.fetchAdd.2 }) : Foreign K G1 G2 G3 Gt Int32)
  (fun s => (.next (), { s with enc := s.enc.insert id cache }) : Foreign K G1 G2 G3 Gt Unit)
  writeHandle id

/-- `h_aes_destroy_encryption_cache`, /repo/src/interfaces/ffi/hybrid_gpsw_aes.rs:117-123. -/
def hDestroyEncryptionCache (handle : Int32) : Foreign K G1 G2 G3 Gt Int32 := fun s =>
  (.next 0, { s with enc := s.enc.remove handle })

/-- The common end of the two functions encrypting a header, from the decoding of the attributes:
/repo/src/interfaces/ffi/hybrid_gpsw_aes.rs:169-236 and 297-365. -/
def finishEncryptHeader (cache : EncryptionCache G2 Gt) (a : EncHeaderArgs K Gt Nonce) : Foreign K G1 G2 G3 Gt Int32 := do
  let attributes ← readStr a.attributes (utf8 "Hybrid Cipher: invalid Policy")
  let attributes ← lib.json (lib.serde.attributesDec attributes)
  let uid ← (if a.uid.mem.isNone ∨ a.uid.len = 0 then pure [] else readIn a.uid : Foreign K G1 G2 G3 Gt Bytes)
  let additional ← (if a.additional.mem.isNone ∨ a.additional.len = 0 then pure none
    else do let b ← readIn a.additional; pure (some b) : Foreign K G1 G2 G3 Gt (Option Bytes))
  let h ← lib.unwrap (encryptHybridHeader lib.e lib.bm lib.cs lib.t cache.policy cache.publicKey attributes
    (some { uid := uid, additionalData := additional }) a.random a.s a.nonce)
  writeOut lib.t .symKey (tooSmall' "symmetric key") (lib.e.keyEnc h.symmetricKey)
  writeOut lib.t .header (tooSmall' "symmetric key") h.encryptedHeaderBytes
  return 0

/-- Checks of the output buffers of the two functions encrypting a header.  /repo/src/interfaces/ffi/hybrid_gpsw_aes.rs:141-154 and 259-272. -/
def checkEncryptHeaderOut : Foreign K G1 G2 G3 Gt Unit := do
  checkOut .symKey "Symmetric key pointer should point to pre-allocated memory"
    "The symmetric key buffer should have a size greater than zero"
  checkOut .header "Header bytes pointer should point to pre-allocated memory"
    "The header bytes buffer should have a size greater than zero"

/-- `h_aes_encrypt_header_using_cache`, /repo/src/interfaces/ffi/hybrid_gpsw_aes.rs:129-237. -/
def hEncryptHeaderUsingCache (handle : Int32) (a : EncHeaderArgs K Gt Nonce) : Foreign K G1 G2 G3 Gt Int32 := do
  checkEncryptHeaderOut
  notNull a.attributes "Attributes pointer should not be null"
  let cache ← (fun s => (.next (s.enc.get handle), s) : Foreign K G1 G2 G3 Gt (Option (EncryptionCache G2 Gt)))
  match cache with
  | none => bail (utf8 ("Hybrid Cipher: no encryption cache with handle: " ++ toString handle.toInt))
  | some cache => finishEncryptHeader lib cache a

/-- `h_aes_encrypt_header`, /repo/src/interfaces/ffi/hybrid_gpsw_aes.rs:245-366. -/
def hEncryptHeader (c : EncCacheArgs) (a : EncHeaderArgs K Gt Nonce) : Foreign K G1 G2 G3 Gt Int32 := do
  checkEncryptHeaderOut
  notNull c.policy "Policy pointer should not be null"
  checkIn c.publicKey "Policy pointer should not be null" "The public key should not be empty"
  notNull a.attributes "Attributes pointer should not be null"
  let policy ← readStr c.policy (utf8 "Hybrid Cipher: invalid Policy")
  let policy ← lib.json (lib.serde.policyDec policy)
  let bytes ← readIn c.publicKey
  let publicKey ← lib.unwrap ((pubKeyCodec lib.t lib.cs).dec bytes)
  finishEncryptHeader lib { policy := policy, publicKey := publicKey } a

/-! ## hybrid_gpsw_aes.rs: decryption -/

/-- The part of `h_aes_create_decryption_cache` before the identifier is drawn, /repo/src/interfaces/ffi/hybrid_gpsw_aes.rs:401-423. -/
def prepareDecryptionCache (key : InBuf) : Foreign K G1 G2 G3 Gt (DecryptionKey K G1 G3) := do
  checkIn key "User decryption key pointer should not be null" "The user decryption key should not be empty"
  let bytes ← readIn key
  Prog.unwrap (fun e => utf8 "Hybrid Cipher: invalid user decryption key: " ++ lib.debug (some e))
    ((userKeyCodec lib.t lib.cs lib.bm).dec bytes)

/-- `h_aes_create_decryption_cache`, /repo/src/interfaces/ffi/hybrid_gpsw_aes.rs:396-431, without interference of other threads. -/
def hCreateDecryptionCache (key : InBuf) : Foreign K G1 G2 G3 Gt Int32 := do
  let cache ← prepareDecryptionCache lib key
  let id ← (fun s => (.next s.dec.fetchAdd.1, { s with dec := s.dec.fetchAdd.2 }) : Foreign K G1 G2 G3 Gt Int32)
  (fun s => (.next (), { s with dec := s.dec.insert id cache }) : Foreign K G1 G2 G3 Gt Unit)
  writeHandle id

/-- `h_aes_destroy_decryption_cache`, /repo/src/interfaces/ffi/hybrid_gpsw_aes.rs:437-443. -/
def hDestroyDecryptionCache (handle : Int32) : Foreign K G1 G2 G3 Gt Int32 := fun s =>
  (.next 0, { s with dec := s.dec.remove handle })

/-- `if !ptr.is_null() && *len > 0 { .. }` for the optional output buffers of the functions decrypting a header.
/repo/src/interfaces/ffi/hybrid_gpsw_aes.rs:516, 531, 651 and 666. -/
def ifExpected {E D : Type} (k : Slot) (p : Prog E D Unit) : Prog E D Unit := do
  let ptr ← outPtr k
  if ptr.isNone then pure ()
  else do
    let n ← readLen k
    if 0 < n.toInt then p else pure ()

/-- The common end of the two functions decrypting a header: /repo/src/interfaces/ffi/hybrid_gpsw_aes.rs:497-550 and 632-685. -/
def finishDecryptHeader (key : DecryptionKey K G1 G3) (header : Bytes) : Foreign K G1 G2 G3 Gt Int32 := do
  let h ← lib.unwrap (decryptHybridHeader lib.e lib.bm lib.cs lib.t key header)
  writeOut lib.t .symKey (tooSmall' "symmetric key") (lib.e.keyEnc h.symmetricKey)
  ifExpected .uid (writeOut lib.t .uid (tooSmall' "uid") h.metaData.uid)
  ifExpected .additional (match h.metaData.additionalData with
    | some ad => writeOut lib.t .additional (tooSmall' "additional_data") ad
    | none => writeLen .additional 0)
  return 0

/-- `h_aes_decrypt_header_using_cache`, /repo/src/interfaces/ffi/hybrid_gpsw_aes.rs:453-551. -/
def hDecryptHeaderUsingCache (header : InBuf) (handle : Int32) : Foreign K G1 G2 G3 Gt Int32 := do
  checkOut .symKey "Symmetric key pointer should point to pre-allocated memory"
    "The symmetric key buffer should have a size greater than zero"
  checkIn header "Encrypted header bytes pointer should not be bull" "The encrypted header bytes size should be greater than zero"
  let header ← readIn header
  let cache ← (fun s => (.next (s.dec.get handle), s) : Foreign K G1 G2 G3 Gt (Option (DecryptionKey K G1 G3)))
  match cache with
  | none => bail (utf8 ("Hybrid Cipher: no decryption cache with handle: " ++ toString handle.toInt))
  | some key => finishDecryptHeader lib key header

/-- `h_aes_decrypt_header`, /repo/src/interfaces/ffi/hybrid_gpsw_aes.rs:585-686. -/
def hDecryptHeader (header key : InBuf) : Foreign K G1 G2 G3 Gt Int32 := do
  checkOut .symKey "Symmetric key pointer should point to pre-allocated memory"
    "The symmetric key buffer should have a size greater than zero"
  checkIn header "Encrypted header bytes pointer should not be bull" "The encrypted header bytes size should be greater than zero"
  checkIn key "The user decryption key pointer should not be null" "The user decryption key should not be empty"
  let header ← readIn header
  let bytes ← readIn key
  let key ← lib.unwrap ((userKeyCodec lib.t lib.cs lib.bm).dec bytes)
  finishDecryptHeader lib key header

/-- `h_get_encrypted_header_size`, /repo/src/interfaces/ffi/hybrid_gpsw_aes.rs:555-573. -/
def hGetEncryptedHeaderSize (encrypted : InBuf) : Foreign K G1 G2 G3 Gt Int32 := do
  checkIn encrypted "Encrypted bytes pointer should not be bull" "Encrypted value must be at least 4-bytes long"
  let b ← readIn encrypted
  let b ← (Prog.unwrap (fun _ => []) (slice b 0 4) : Foreign K G1 G2 G3 Gt Bytes)
  return (ofBe32 b).toInt32

/-- `h_aes_symmetric_encryption_overhead`, /repo/src/interfaces/ffi/hybrid_gpsw_aes.rs:695-697. -/
def hSymmetricEncryptionOverhead : Foreign K G1 G2 G3 Gt Int32 := return asCInt (symmetricEncryptionOverhead lib.e)

/-- Arguments of the block functions: /repo/src/interfaces/ffi/hybrid_gpsw_aes.rs:721-751 and 793-827.  Returns the key, the identifier
and the data. -/
def readBlockArgs (a : BlockArgs) : Foreign K G1 G2 G3 Gt (Key × Bytes × Bytes) := do
  checkIn a.key "Symmetric Key pointer should not be null" "The Symmetric Key should not be empty"
  let key ← readIn a.key
  let uid ← (if a.uid.mem.isSome ∧ 0 < a.uid.len.toInt then readIn a.uid else pure [] : Foreign K G1 G2 G3 Gt Bytes)
  checkIn a.data "Data pointer should not be null" "The data should not be empty"
  let data ← readIn a.data
  let key ← lib.unwrap (lib.e.keyDec key)
  return (key, uid, data)

/-- `h_aes_encrypt_block`, /repo/src/interfaces/ffi/hybrid_gpsw_aes.rs:702-769. -/
def hEncryptBlock (a : BlockArgs) (nonce : Nonce) : Foreign K G1 G2 G3 Gt Int32 := do
  checkOut .out "The encrypted bytes pointer should point to pre-allocated memory"
    "The encrypted bytes buffer should have a size greater than zero"
  let x ← readBlockArgs lib a
  let bytes ← lib.unwrap (encryptHybridBlock lib.e maxClearTextSize x.1 x.2.1 (asUsize lib.t a.blockNumber) x.2.2 nonce)
  writeBlock lib.t (fun n => tooSmall' "encrypted bytes" n 0) bytes
  return 0

/-- `h_aes_decrypt_block`, /repo/src/interfaces/ffi/hybrid_gpsw_aes.rs:774-845. -/
def hDecryptBlock (a : BlockArgs) : Foreign K G1 G2 G3 Gt Int32 := do
  checkOut .out "The clear text bytes pointer should point to pre-allocated memory"
    "The clear text bytes buffer should have a size greater than zero"
  let x ← readBlockArgs lib a
  let bytes ← lib.unwrap (decryptHybridBlock lib.e maxClearTextSize x.1 x.2.1 (asUsize lib.t a.blockNumber) x.2.2)
  writeBlock lib.t (fun n => tooSmall' "clear text" n 0) bytes
  return 0

/-! ## All the functions, and threads -/

/-- A call of a foreign function with its arguments.
The functions of /repo/src/interfaces/ffi/generate_gpsw_keys.rs, /repo/src/interfaces/ffi/hybrid_gpsw_aes.rs and /repo/src/interfaces/ffi/error.rs:144-207. -/
inductive FCall (K Gt Nonce : Type) where
  | setError (msg : Option Bytes)
  | getLastError
  | generateMasterKeys (policy : Option Bytes) (rnd : Nat → K) (y : K)
  | generateUserPrivateKey (priv : InBuf) (accessPolicy policy : Option Bytes) (rnd : Nat → K)
  | rotateAttributes (attributes policy : Option Bytes)
  | createEncryptionCache (a : EncCacheArgs)
  | destroyEncryptionCache (handle : Int32)
  | encryptHeaderUsingCache (handle : Int32) (a : EncHeaderArgs K Gt Nonce)
  | encryptHeader (c : EncCacheArgs) (a : EncHeaderArgs K Gt Nonce)
  | createDecryptionCache (key : InBuf)
  | destroyDecryptionCache (handle : Int32)
  | decryptHeaderUsingCache (header : InBuf) (handle : Int32)
  | decryptHeader (header key : InBuf)
  | getEncryptedHeaderSize (encrypted : InBuf)
  | symmetricEncryptionOverhead
  | encryptBlock (a : BlockArgs) (nonce : Nonce)
  | decryptBlock (a : BlockArgs)

/-- The function called.
The functions of /repo/src/interfaces/ffi/generate_gpsw_keys.rs, /repo/src/interfaces/ffi/hybrid_gpsw_aes.rs and /repo/src/interfaces/ffi/error.rs:144-207. -/
def FCall.prog : FCall K Gt Nonce → Foreign K G1 G2 G3 Gt Int32
  | .setError msg => hSetError msg
  | .getLastError => hGetLastError lib.display
  | .generateMasterKeys p rnd y => hGenerateMasterKeys lib p rnd y
  | .generateUserPrivateKey priv ap p rnd => hGenerateUserPrivateKey lib priv ap p rnd
  | .rotateAttributes a p => hRotateAttributes lib a p
  | .createEncryptionCache a => hCreateEncryptionCache lib a
  | .destroyEncryptionCache h => hDestroyEncryptionCache h
  | .encryptHeaderUsingCache h a => hEncryptHeaderUsingCache lib h a
  | .encryptHeader c a => hEncryptHeader lib c a
  | .createDecryptionCache k => hCreateDecryptionCache lib k
  | .destroyDecryptionCache h => hDestroyDecryptionCache h
  | .decryptHeaderUsingCache hd h => hDecryptHeaderUsingCache lib hd h
  | .decryptHeader hd k => hDecryptHeader lib hd k
  | .getEncryptedHeaderSize e => hGetEncryptedHeaderSize e
  | .symmetricEncryptionOverhead => hSymmetricEncryptionOverhead lib
  | .encryptBlock a n => hEncryptBlock lib a n
  | .decryptBlock a => hDecryptBlock lib a

/-- The counter and the map are changed separately, /repo/src/interfaces/ffi/hybrid_gpsw_aes.rs:104-108 and 424-428. -/
abbrev Thread := Nat

/-- The creation of a cache by a thread which has drawn an identifier but not yet inserted the cache in the map.
The counter and the map are changed separately, /repo/src/interfaces/ffi/hybrid_gpsw_aes.rs:104-108 and 424-428. -/
structure Pending (α : Type) where
  id : Int32
  cache : α
  mem : CMem

/-- The state of the process: the registries, the thread-local last errors (/repo/src/interfaces/ffi/error.rs:126-129), and the
creations under way. -/
structure Sys (E D : Type) where
  enc : Registry E
  dec : Registry D
  err : Thread → Option FfiError
  pendEnc : Thread → Option (Pending E)
  pendDec : Thread → Option (Pending D)

/-- The state when the library is loaded.  /repo/src/interfaces/ffi/error.rs:128 and /repo/src/interfaces/ffi/hybrid_gpsw_aes.rs:44-48 and 373-377. -/
def Sys.init {E D : Type} : Sys E D := ⟨.empty, .empty, fun _ => none, fun _ => none, fun _ => none⟩

/-- An atomic step of a thread: a call with the memory of its caller (for the creation of a cache, up to the drawing of the identifier),
or the rest of the creation of a cache.  Other calls access a registry at most once, holding its lock, so they are atomic.
The state shared by threads is that of /repo/src/interfaces/ffi/hybrid_gpsw_aes.rs:44-48 and 373-377, the state of each that of /repo/src/interfaces/ffi/error.rs:126-129. -/
inductive FEvent (K Gt Nonce : Type) where
  | call (c : FCall K Gt Nonce) (m : CMem)
  | finish

/-- What a call returns: how it ends, and the memory of its caller.
The state shared by threads is that of /repo/src/interfaces/ffi/hybrid_gpsw_aes.rs:44-48 and 373-377, the state of each that of /repo/src/interfaces/ffi/error.rs:126-129. -/
abbrev FReply := Flow Int32 × CMem

namespace Sys
variable {E D : Type}

/-- What a thread sees.
The state shared by threads is that of /repo/src/interfaces/ffi/hybrid_gpsw_aes.rs:44-48 and 373-377, the state of each that of /repo/src/interfaces/ffi/error.rs:126-129. -/
def view (s : Sys E D) (τ : Thread) (m : CMem) : FState E D := ⟨s.err τ, s.enc, s.dec, m⟩

/-- Update of a function at a thread.
The state shared by threads is that of /repo/src/interfaces/ffi/hybrid_gpsw_aes.rs:44-48 and 373-377, the state of each that of /repo/src/interfaces/ffi/error.rs:126-129. -/
def upd {α : Type} (f : Thread → α) (τ : Thread) (a : α) : Thread → α := fun τ' => if τ' = τ then a else f τ'

/-- The state after a thread has worked.
The state shared by threads is that of /repo/src/interfaces/ffi/hybrid_gpsw_aes.rs:44-48 and 373-377, the state of each that of /repo/src/interfaces/ffi/error.rs:126-129. -/
def back (s : Sys E D) (τ : Thread) (x : FState E D) : Sys E D := { s with enc := x.enc, dec := x.dec, err := upd s.err τ x.err }

end Sys

/-- The first part of a creation: either it stops, or it draws an identifier.
The state shared by threads is that of /repo/src/interfaces/ffi/hybrid_gpsw_aes.rs:44-48 and 373-377, the state of each that of /repo/src/interfaces/ffi/error.rs:126-129. -/
def startCreation {E D α : Type} (s : Sys E D) (τ : Thread) (m : CMem) (prepare : Prog E D α)
    (draw : Sys E D → α → Sys E D) : Sys E D × Option FReply :=
  match prepare (s.view τ m) with
  | (.next c, x) => (draw (s.back τ x) c, none)
  | (.ret c, x) => (s.back τ x, some (.ret c, x.mem))
  | (.panic, x) => (s.back τ x, some (.panic, x.mem))
  | (.ub, x) => (s.back τ x, some (.ub, x.mem))

/-- A step of a thread, with the reply if a call ends.  A thread in the middle of a creation can only finish it.
The state shared by threads is that of /repo/src/interfaces/ffi/hybrid_gpsw_aes.rs:44-48 and 373-377, the state of each that of /repo/src/interfaces/ffi/error.rs:126-129. -/
def fstep (s : Sys (EncryptionCache G2 Gt) (DecryptionKey K G1 G3)) (τ : Thread) :
    FEvent K Gt Nonce → Sys (EncryptionCache G2 Gt) (DecryptionKey K G1 G3) × Option FReply
  | .call c m =>
    if (s.pendEnc τ).isSome ∨ (s.pendDec τ).isSome then (s, none)
    else match c with
    | .createEncryptionCache a => startCreation s τ m (prepareEncryptionCache lib a) fun s c =>
        { s with enc := s.enc.fetchAdd.2, pendEnc := Sys.upd s.pendEnc τ (some ⟨s.enc.fetchAdd.1, c, m⟩) }
    | .createDecryptionCache k => startCreation s τ m (prepareDecryptionCache lib k) fun s c =>
        { s with dec := s.dec.fetchAdd.2, pendDec := Sys.upd s.pendDec τ (some ⟨s.dec.fetchAdd.1, c, m⟩) }
    | c =>
      let r := (c.prog lib).run (s.view τ m)
      (s.back τ r.2, some (r.1, r.2.mem))
  | .finish =>
    match s.pendEnc τ with
    | some p =>
      let s' := { s with enc := s.enc.insert p.id p.cache, pendEnc := Sys.upd s.pendEnc τ none }
      let r := (writeHandle p.id).run (s'.view τ p.mem)
      (s'.back τ r.2, some (r.1, r.2.mem))
    | none =>
      match s.pendDec τ with
      | some p =>
        let s' := { s with dec := s.dec.insert p.id p.cache, pendDec := Sys.upd s.pendDec τ none }
        let r := (writeHandle p.id).run (s'.view τ p.mem)
        (s'.back τ r.2, some (r.1, r.2.mem))
      | none => (s, none)

/-- A history: the steps of all the threads in the order they happen.
The state shared by threads is that of /repo/src/interfaces/ffi/hybrid_gpsw_aes.rs:44-48 and 373-377, the state of each that of /repo/src/interfaces/ffi/error.rs:126-129. -/
def frun (s : Sys (EncryptionCache G2 Gt) (DecryptionKey K G1 G3)) :
    List (Thread × FEvent K Gt Nonce) → Sys (EncryptionCache G2 Gt) (DecryptionKey K G1 G3)
  | [] => s
  | (τ, e) :: es => frun (fstep lib s τ e).1 es

end

end Abe
