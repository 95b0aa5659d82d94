import Verif.Spec.Ffi
import Verif.Spec.Py
import Verif.Model.Wasm
import Verif.Spec.Hybrid

/-!
# Keys and headers exchanged between the interfaces

Every call below is made on a machine of its own, through one of the three interfaces: the builds may have different pointer widths,
overflow checks and argument decoders.
-/

namespace Abe

variable {K P Q QP T Key Nonce : Type} [Field K] [DecidableEq K]

/-- A build of the library with the given curve operations, encodings of elements and symmetric scheme, for a target of at least 32 bits. -/
structure FfiLib.Builds (lib : FfiLib K QP P Q T Key Nonce) (bm : BilinearMap K QP P Q T) (cs : Codecs K P Q T)
    (e : External Key Nonce) : Prop where
  bm_eq : lib.bm = bm
  cs_eq : lib.cs = cs
  e_eq : lib.e = e
  bits : 32 ≤ lib.t.bits

variable (bm : BilinearMap K QP P Q T) (cs : Codecs K P Q T) (e : External Key Nonce)

/-- `priv` and `pub` are the master keys returned by one of the interfaces for the policy and the random values; `del` is the delegation
key, which only Python returns. -/
inductive MasterBytes (p : Policy) (rnd : Nat → K) (y : K) : Bytes → Bytes → Option Bytes → Prop
  | python {lib : FfiLib K QP P Q T Key Nonce} {polB priv pub del : Bytes} : lib.Builds bm cs e → lib.serde.policyDec polB = some p →
      pyGenerateMasterKeys lib.toLib polB rnd y = .ok (priv, pub, del) → max (max priv.length pub.length) del.length < 2 ^ 32 →
      MasterBytes p rnd y priv pub (some del)
  | c {lib : FfiLib K QP P Q T Key Nonce} {policy : Option Bytes} {b : Bytes} : lib.Builds bm cs e →
      StrArg policy lib.serde.policyDec p → MasterKeysAnswer lib policy rnd y b → b.length < 2 ^ 32 →
      MasterBytes p rnd y ((b.drop 4).take (bigEndian (b.take 4))) (b.drop (4 + bigEndian (b.take 4))) none
  | js {lib : FfiLib K QP P Q T Key Nonce} {polB b : Bytes} : lib.Builds bm cs e → lib.serde.policyDec polB = some p →
      jsGenerateMasterKeys lib.toLib polB rnd y = .ok b → b.length < 2 ^ 32 →
      MasterBytes p rnd y ((b.drop 4).take (bigEndian (b.take 4))) (b.drop (4 + bigEndian (b.take 4))) none

/-- `b` is a user key for the access policy, obtained by calls of the interfaces with the master keys `priv` and `del`. -/
inductive UserBytes (p : Policy) (priv : Bytes) (del : Option Bytes) : AccessPolicy → Bytes → Prop
  | python {lib : FfiLib K QP P Q T Key Nonce} {ap : AccessPolicy} {str : String} {polB b : Bytes} (rnd : Nat → K) :
      lib.Builds bm cs e → lib.serde.policyDec polB = some p → lib.serde.accessPolicyParse str = some ap →
      pyGenerateUserPrivateKey lib.toLib priv str polB rnd = .ok b → b.length < 2 ^ 32 → UserBytes p priv del ap b
  | c {lib : FfiLib K QP P Q T Key Nonce} {ap : AccessPolicy} {privBuf : InBuf} {access policy : Option Bytes} {b : Bytes}
      (rnd : Nat → K) : lib.Builds bm cs e → IsIn privBuf priv → StrArg policy lib.serde.policyDec p →
      StrArg access lib.serde.accessPolicyDec ap → UserKeyAnswer lib privBuf access policy rnd b → b.length < 2 ^ 32 →
      UserBytes p priv del ap b
  | js {lib : FfiLib K QP P Q T Key Nonce} {ap : AccessPolicy} {str : String} {polB b : Bytes} (rnd : Nat → K) :
      lib.Builds bm cs e → lib.serde.policyDec polB = some p → lib.serde.accessPolicyParse str = some ap →
      jsGenerateUserPrivateKey lib.toLib priv str polB rnd = .ok b → b.length < 2 ^ 32 → UserBytes p priv del ap b
  | randomise {lib : FfiLib K QP P Q T Key Nonce} {ap : AccessPolicy} {str : String} {polB delB b b' : Bytes} (rnd : Nat → K) :
      lib.Builds bm cs e → UserBytes p priv del ap b → del = some delB → lib.serde.policyDec polB = some p →
      lib.serde.accessPolicyParse str = some .all → pyGenerateDelegatedKey lib.toLib delB b str polB rnd = .ok b' →
      b'.length < 2 ^ 32 → UserBytes p priv del ap b'
  | delegate {lib : FfiLib K QP P Q T Key Nonce} {ap ap' : AccessPolicy} {str : String} {polB delB b b' : Bytes} (rnd : Nat → K) :
      lib.Builds bm cs e → UserBytes p priv del ap b → del = some delB → ap.Restricts p ap' → ap' ≠ .all →
      lib.serde.policyDec polB = some p → lib.serde.accessPolicyParse str = some ap' →
      pyGenerateDelegatedKey lib.toLib delB b str polB rnd = .ok b' → b'.length < 2 ^ 32 → UserBytes p priv del ap' b'

/-- `kb` and `hb` are the symmetric key and the header returned by one of the interfaces for the attributes and the metadata, with the
public key `pub`.  JavaScript packs both behind the length of the key on 4 bytes. -/
inductive HeaderBytes (p : Policy) (pub : Bytes) (atts : List Attribute) : Metadata → Bytes → Bytes → Prop
  | python {lib : FfiLib K QP P Q T Key Nonce} {mdB polB attB kb hb : Bytes} {m : Metadata} (random : T) (s : K) (n : Nonce) :
      lib.Builds bm cs e → lib.serde.metadataDec mdB = some m → lib.serde.policyDec polB = some p →
      lib.serde.attributesDec attB = some atts → pyEncryptHybridHeader lib.toLib mdB polB attB pub random s n = .ok (kb, hb) →
      HeaderBytes p pub atts m kb hb
  | c {lib : FfiLib K QP P Q T Key Nonce} {policy : Option Bytes} {pubBuf : InBuf} {cache : EncryptionCache P T}
      {a : EncHeaderArgs K T Nonce} {uid kb hb : Bytes} {ad : Option Bytes} :
      lib.Builds bm cs e → IsIn pubBuf pub → StrArg policy lib.serde.policyDec p → EncCacheArgs.Decodes lib ⟨policy, pubBuf⟩ cache →
      StrArg a.attributes lib.serde.attributesDec atts → UidArg a.uid uid → AdditionalArg a.additional ad →
      HeaderAnswer lib cache a kb hb → HeaderBytes p pub atts ⟨uid, ad⟩ kb hb
  | js {lib : FfiLib K QP P Q T Key Nonce} {polB uid b : Bytes} {str : String} (random : T) (s : K) (n : Nonce) :
      lib.Builds bm cs e → lib.serde.policyDec polB = some p → lib.serde.attributesParse str = some atts →
      jsEncryptHybridHeader lib.toLib polB pub str uid random s n = .ok b →
      HeaderBytes p pub atts ⟨uid, none⟩ ((b.drop 4).take (bigEndian (b.take 4))) (b.drop (4 + bigEndian (b.take 4)))

/-- With the user key `ub`, every interface decrypts the header `hb` to the symmetric key `kb` and the metadata. -/
structure OpensEverywhere (ub hb kb : Bytes) (m : Metadata) : Prop where
  python : ∀ lib : FfiLib K QP P Q T Key Nonce, lib.Builds bm cs e →
    ∃ mb, pyDecryptHybridHeader lib.toLib ub hb = .ok (kb, mb) ∧ e.metaDec mb = .ok m
  c : ∀ lib : FfiLib K QP P Q T Key Nonce, lib.Builds bm cs e → ∀ user header, IsIn user ub → IsIn header hb →
    DeliversClearHeader (fun _ => True) (hDecryptHeader lib header user) kb m.uid m.additionalData
  js : ∀ lib : FfiLib K QP P Q T Key Nonce, lib.Builds bm cs e → ∃ head mb, jsDecryptHybridHeader lib.toLib ub hb = .ok (head ++ kb ++ mb) ∧
    head.length = 4 ∧ bigEndian head = kb.length ∧ e.metaDec mb = .ok m

/-- With the user key `ub`, no interface decrypts the header `hb`. -/
structure OpensNowhere (ub hb : Bytes) : Prop where
  python : ∀ lib : FfiLib K QP P Q T Key Nonce, lib.Builds bm cs e → ∀ x, pyDecryptHybridHeader lib.toLib ub hb ≠ .ok x
  c : ∀ lib : FfiLib K QP P Q T Key Nonce, lib.Builds bm cs e → ∀ user header, IsIn user ub → IsIn header hb →
    NeverWrites (hDecryptHeader lib header user)
  js : ∀ lib : FfiLib K QP P Q T Key Nonce, lib.Builds bm cs e → ∀ x, jsDecryptHybridHeader lib.toLib ub hb ≠ .ok x

/-- The block number `i` denoted by a `c_int` on a target: negative ones count down from the number of addresses. -/
def CNumber (t : Target) (n : Int32) (i : Nat) : Prop := (0 ≤ n.toInt ∧ (i : Int) = n.toInt) ∨ (n.toInt < 0 ∧ (i : Int) = 2 ^ t.bits + n.toInt)

/-- `b` is the encryption of the block `data` returned by one of the interfaces for the key bytes, the identifier and the number. -/
inductive BlockBytes (kb uid : Bytes) (i : Nat) (data : Bytes) : Bytes → Prop
  | python {b : Bytes} (n : Nonce) : pyEncryptHybridBlock e kb uid i data n = .ok b → BlockBytes kb uid i data b
  | c {lib : FfiLib K QP P Q T Key Nonce} {a : BlockArgs} {b : Bytes} (n : Nonce) : lib.Builds bm cs e → IsIn a.key kb →
      BlockUidArg a.uid uid → CNumber lib.t a.blockNumber i → IsIn a.data data → BlockAnswer lib a n b → BlockBytes kb uid i data b
  | js {uid' : Option Bytes} {i' : Option Nat} {b : Bytes} (n : Nonce) : uid'.getD [] = uid → i'.getD 0 = i →
      jsEncryptHybridBlock e kb uid' i' data n = .ok b → BlockBytes kb uid i data b

/-- Every interface decrypts `b` to `data` with the key bytes, the identifier and the number. -/
structure BlockOpensEverywhere (kb uid : Bytes) (i : Nat) (b data : Bytes) : Prop where
  python : pyDecryptHybridBlock e kb uid i b = .ok data
  c : ∀ lib : FfiLib K QP P Q T Key Nonce, lib.Builds bm cs e → ∀ a : BlockArgs, IsIn a.key kb → BlockUidArg a.uid uid →
    CNumber lib.t a.blockNumber i → IsIn a.data b → DeliversSilently lib.t (hDecryptBlock lib a) .out data
  js : ∀ uid' i', uid'.getD [] = uid → i'.getD 0 = i → jsDecryptHybridBlock e kb uid' i' b = .ok data

end Abe
