import Verif.Model.RepoFfiTests
import Verif.Model.RepoFileTests

/-!
# The benchmarks

/repo/benches/benches.rs as programs.  The public key, the policy and the user key, which the benchmarks read from JSON files, are arguments (the keys as bytes), and so is the JSON
text of the two attributes.  `b.iter(f)` of the external crate `criterion` runs `f` a number of times chosen by the measurements: any number here, with the random values of each
iteration as arguments.  Time is not modelled.  Every `expect` of an error is a panic; so is undefined behaviour.
-/

namespace Abe.RepoBench

open RepoFfi RepoFiles

section
variable {K G1 G2 G3 Gt Key Nonce : Type} [Field K] [DecidableEq K] (lib : FfiLib K G1 G2 G3 Gt Key Nonce)

/-- The random values of one encryption.  For example in /repo/benches/benches.rs:82-88. -/
structure Draw (K Gt Nonce : Type) where
  /-- The element of the target group from which the symmetric key is derived. -/
  random : Gt
  /-- The scalar of the ciphertext. -/
  s : K
  /-- The nonce of the metadata. -/
  nonce : Nonce

/-- `b.iter(f)`, of which the result is not used.  /repo/benches/benches.rs:387 and similar. -/
def iter {α β : Type} (f : α → Out β) (l : List α) : Out Unit := foldRes (fun _ a => do let _ ← f a; return ()) () l

/-- `encrypt_hybrid_header(…).expect(…)`, for example /repo/benches/benches.rs:82-88. -/
def encrypt (policy : Policy) (pub : MasterPublicKey G2 Gt) (atts : List Attribute) (md : Option Metadata) (d : Draw K Gt Nonce) : Out (EncryptedHeader Key) :=
  unwrapRes (encryptHybridHeader lib.e lib.bm lib.cs lib.t policy pub atts md d.random d.s d.nonce)

/-- `generate_encrypted_header`, /repo/benches/benches.rs:48-89. -/
def generateEncryptedHeader (publicKey : Bytes) (policy : Policy) (d : Draw K Gt Nonce) : Out (EncryptedHeader Key) := do
  let pub ← unwrapRes ((pubKeyCodec lib.t lib.cs).dec publicKey)
  encrypt lib policy pub RepoHybrid.attributes (some RepoHybrid.metaData) d

/-- `policy_attributes_3`, /repo/benches/benches.rs:126-131. -/
def attributes3 : List Attribute := RepoHybrid.attributes ++ [⟨"Security Level", "Medium Secret"⟩, ⟨"Security Level", "Protected"⟩]

/-- `bench_header_encryption`, /repo/benches/benches.rs:91-184: the two sizes which it prints. -/
def headerEncryption (publicKey : Bytes) (policy : Policy) (d1 d3 : Draw K Gt Nonce) (l1 l3 lm : List (Draw K Gt Nonce)) : Out (Nat × Nat) := do
  let pub ← unwrapRes ((pubKeyCodec lib.t lib.cs).dec publicKey)
  let h1 ← encrypt lib policy pub RepoHybrid.attributes none d1
  let h3 ← encrypt lib policy pub attributes3 none d3
  iter (encrypt lib policy pub RepoHybrid.attributes none) l1
  iter (encrypt lib policy pub attributes3 none) l3
  iter (encrypt lib policy pub RepoHybrid.attributes (some RepoHybrid.metaData)) lm
  return (h1.encryptedHeaderBytes.length, h3.encryptedHeaderBytes.length)

/-- `b.iter(|| unwrap_ffi_error(call).expect(…))`: the buffers and the variables for the lengths are those left by the iteration before; the calls of the iterations differ in their
random values only.  `unwrap_ffi_error` is /repo/benches/benches.rs:527-539. -/
def iterCalls (calls : List (Prog (EncryptionCache G2 Gt) (DecryptionKey K G1 G3) Int32)) (st : Process K G1 G2 G3 Gt) : Out (Process K G1 G2 G3 Gt) :=
  foldRes (fun st call => unwrapRes (unwrapFfiError lib.display (Prog.run call st))) st calls

/-- `bench_ffi_header_encryption`, /repo/benches/benches.rs:186-270. -/
def ffiHeaderEncryption (publicKey : Bytes) (policy : Policy) (attributesJson : Bytes) (l : List (Draw K Gt Nonce)) (st : Process K G1 G2 G3 Gt) :
    Out (Process K G1 G2 G3 Gt) := do
  let pub ← unwrapRes ((pubKeyCodec lib.t lib.cs).dec publicKey)
  let policyPtr ← unwrapRes (policyString lib policy)
  let pubBytes ← unwrapRes ((pubKeyCodec lib.t lib.cs).enc pub)
  let attributesPtr ← unwrapRes (cstring attributesJson)
  let ad ← additionalOf RepoHybrid.metaData
  iterCalls lib (l.map fun d => hEncryptHeader lib ⟨policyPtr, pointer pubBytes⟩ ⟨attributesPtr, pointer RepoHybrid.metaData.uid, pointer ad, d.random, d.s, d.nonce⟩)
    { st with mem := encryptionMemory }

/-- `bench_ffi_header_encryption_using_cache`, /repo/benches/benches.rs:272-368. -/
def ffiHeaderEncryptionUsingCache (publicKey : Bytes) (policy : Policy) (attributesJson : Bytes) (l : List (Draw K Gt Nonce)) (st : Process K G1 G2 G3 Gt) :
    Out (Process K G1 G2 G3 Gt) := do
  let pub ← unwrapRes ((pubKeyCodec lib.t lib.cs).dec publicKey)
  let policyPtr ← unwrapRes (policyString lib policy)
  let pubBytes ← unwrapRes ((pubKeyCodec lib.t lib.cs).enc pub)
  let st ← unwrapRes (unwrapFfiError lib.display ((hCreateEncryptionCache lib ⟨policyPtr, pointer pubBytes⟩).run { st with mem := handleMemory }))
  let handle ← handleOf st
  let attributesPtr ← unwrapRes (cstring attributesJson)
  let ad ← additionalOf RepoHybrid.metaData
  let st ← iterCalls lib (l.map fun d => hEncryptHeaderUsingCache lib handle ⟨attributesPtr, pointer RepoHybrid.metaData.uid, pointer ad, d.random, d.s, d.nonce⟩)
    { st with mem := encryptionMemory }
  unwrapRes (unwrapFfiError lib.display (Prog.run (hDestroyEncryptionCache handle) st))

/-- `bench_header_decryption`, /repo/benches/benches.rs:370-395, with `n` iterations. -/
def headerDecryption (publicKey : Bytes) (policy : Policy) (userKey : Bytes) (d : Draw K Gt Nonce) (n : Nat) : Out Unit := do
  let h ← generateEncryptedHeader lib publicKey policy d
  let key ← unwrapRes ((userKeyCodec lib.t lib.cs lib.bm).dec userKey)
  iter (fun _ => unwrapRes (decryptHybridHeader lib.e lib.bm lib.cs lib.t key h.encryptedHeaderBytes)) (List.replicate n ())

/-- `bench_ffi_header_decryption`, /repo/benches/benches.rs:397-452. -/
def ffiHeaderDecryption (publicKey : Bytes) (policy : Policy) (userKey : Bytes) (d : Draw K Gt Nonce) (n : Nat) (st : Process K G1 G2 G3 Gt) : Out (Process K G1 G2 G3 Gt) := do
  let h ← generateEncryptedHeader lib publicKey policy d
  let key ← unwrapRes ((userKeyCodec lib.t lib.cs lib.bm).dec userKey)
  let keyBytes ← unwrapRes ((userKeyCodec lib.t lib.cs lib.bm).enc key)
  iterCalls lib (List.replicate n (hDecryptHeader lib (pointer h.encryptedHeaderBytes) (pointer keyBytes))) { st with mem := decryptionMemory }

/-- `bench_ffi_header_decryption_using_cache`, /repo/benches/benches.rs:454-525. -/
def ffiHeaderDecryptionUsingCache (publicKey : Bytes) (policy : Policy) (userKey : Bytes) (d : Draw K Gt Nonce) (n : Nat) (st : Process K G1 G2 G3 Gt) :
    Out (Process K G1 G2 G3 Gt) := do
  let h ← generateEncryptedHeader lib publicKey policy d
  let key ← unwrapRes ((userKeyCodec lib.t lib.cs lib.bm).dec userKey)
  let keyBytes ← unwrapRes ((userKeyCodec lib.t lib.cs lib.bm).enc key)
  let st ← unwrapRes (unwrapFfiError lib.display ((hCreateDecryptionCache lib (pointer keyBytes)).run { st with mem := handleMemory }))
  let handle ← handleOf st
  let st ← iterCalls lib (List.replicate n (hDecryptHeaderUsingCache lib (pointer h.encryptedHeaderBytes) handle)) { st with mem := decryptionMemory }
  unwrapRes (unwrapFfiError lib.display (Prog.run (hDestroyDecryptionCache handle) st))

end

end Abe.RepoBench
