import Verif.Model.Policy
import Verif.Model.Scheme

/-!
# The engine

Model of /repo/src/core/engine.rs (keys, encryption, decryption).  `Engine<Gpsw<G>>` adds no state; the scheme calls are
those of `Verif.Model.Scheme` through the `AbeScheme` implementation /repo/src/core/gpsw/scheme.rs:245-319.
-/

namespace Abe

variable {K G1 G2 G3 Gt : Type} [Field K] [DecidableEq K]

/-- `Engine::generate_master_key`, /repo/src/core/engine.rs:36-49. -/
def engineGenerateMasterKey (bm : BilinearMap K G1 G2 G3 Gt) (policy : Policy) (rnd : Nat → K) (y : K) :
    Out (MasterKey K G2 G3 Gt) :=
  generateMasterKey bm policy.maxAttributeCreations.toNat rnd y

/-- `Engine::generate_user_key`, /repo/src/core/engine.rs:53-61. -/
def engineGenerateUserKey (bm : BilinearMap K G1 G2 G3 Gt) (policy : Policy) (priv : MasterPrivateKey K)
    (ap : AccessPolicy) (rnd : Nat → K) : Out (DecryptionKey K G1 G3) := do
  let msp ← policyToMsp policy ap
  keyGeneration bm msp priv rnd

/-- `Engine::delegate_user_key`, /repo/src/core/engine.rs:72-84. -/
def engineDelegateUserKey (bm : BilinearMap K G1 G2 G3 Gt) (policy : Policy) (delKey : DelegationKey G3)
    (userKey : DecryptionKey K G1 G3) (ap : AccessPolicy) (rnd : Nat → K) : Out (DecryptionKey K G1 G3) := do
  let msp ← (match ap with
    | .all => .ok none
    | ap => do
      let m ← policyToMsp policy ap
      .ok (some m) : Out (Option (Msp Int)))
  abeKeyDelegation bm msp userKey delKey rnd

/-- `Engine::encrypt`, /repo/src/core/engine.rs:93-102. -/
def engineEncrypt (bm : BilinearMap K G1 G2 G3 Gt) (t : Target) (policy : Policy) (pub : MasterPublicKey G2 Gt)
    (attributes : List Attribute) (plain : Gt) (s : K) : Out (CipherText G2 Gt) := do
  let ints ← policy.attributesValues attributes
  encrypt bm t plain ints pub s

/-- `Engine::decrypt`, /repo/src/core/engine.rs:105-111. -/
def engineDecrypt (bm : BilinearMap K G1 G2 G3 Gt) (enc : CipherText G2 Gt) (key : DecryptionKey K G1 G3) :
    Out (Option Gt) := decrypt bm enc key

end Abe
