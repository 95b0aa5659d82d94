import Verif.Model.Hybrid

/-!
# Context of the language bindings

The functions of other crates used by the bindings in /repo/src/interfaces besides those of `External`.
-/

namespace Abe

/-- Decoders of arguments in other crates: `serde_json` with the derived implementations of `abe_policy` and
`cosmian_crypto_base`, and the expression parsers of `abe_policy`.
Used at /repo/src/interfaces/ffi/generate_gpsw_keys.rs:53, 151 and 233, /repo/src/interfaces/pyo3/generate_gpsw_keys.rs:55, 117 and 131 and /repo/src/interfaces/wasm_bindgen/hybrid_gpsw_aes_encryption.rs:70. -/
structure Serde where
  /-- `serde_json::from_slice::<Policy>` -/
  policyDec : Bytes → Option Policy
  /-- `serde_json::to_vec(&policy)`; also the bytes of `policy.to_string()` -/
  policyEnc : Policy → Option Bytes
  /-- `serde_json::from_slice::<Vec<Attribute>>` -/
  attributesDec : Bytes → Option (List Attribute)
  /-- `serde_json::from_slice::<Metadata>` -/
  metadataDec : Bytes → Option Metadata
  /-- `serde_json::from_slice::<Vec<PolicyAxis>>` -/
  axesDec : Bytes → Option (List PolicyAxis)
  /-- `serde_json::from_slice::<AccessPolicy>` -/
  accessPolicyDec : Bytes → Option AccessPolicy
  /-- `AccessPolicy::from_boolean_expression` -/
  accessPolicyParse : String → Option AccessPolicy
  /-- `Attributes::try_from(&str)` -/
  attributesParse : String → Option (List Attribute)

/-- All the parameters of the model: the curve operations, the encodings of its elements, the external crates and the target. -/
structure Lib (K G1 G2 G3 Gt Key Nonce : Type) where
  bm : BilinearMap K G1 G2 G3 Gt
  cs : Codecs K G2 G3 Gt
  e : External Key Nonce
  serde : Serde
  t : Target

/-- `MAX_CLEAR_TEXT_SIZE`, /repo/src/interfaces/pyo3/hybrid_gpsw_aes.rs:31, /repo/src/interfaces/ffi/hybrid_gpsw_aes.rs:690,
/repo/src/interfaces/wasm_bindgen/hybrid_gpsw_aes_decryption.rs:28. -/
def maxClearTextSize : Nat := 2 ^ 30

end Abe
