import Verif.Spec.Interop
import Verif.Spec.History

/-!
# Keys and policies exchanged between the interfaces over time

For property C108.  As in `Spec.Interop`, every call is made on a machine of its own, through one of the three interfaces.
-/

namespace Abe

variable {K P Q QP T Key Nonce : Type} [Field K] [DecidableEq K]

/-- `IssuedBytes … p ap b`: `b` is a user key for the access policy, obtained by calls of the interfaces with the master keys `priv` and `del`, at several moments
of the life of the policy; `p` is the policy whose attribute values the key knows: that of the first call, or an earlier one given in a delegation. -/
inductive IssuedBytes (bm : BilinearMap K QP P Q T) (cs : Codecs K P Q T) (e : External Key Nonce) (priv : Bytes) (del : Option Bytes) :
    Policy → AccessPolicy → Bytes → Prop
  | made {p : Policy} {ap : AccessPolicy} {b : Bytes} : p.Reachable → UserBytes bm cs e p priv del ap b → IssuedBytes bm cs e priv del p ap b
  | randomise {lib : FfiLib K QP P Q T Key Nonce} {p q : Policy} {ap : AccessPolicy} {str : String} {polB delB b b' : Bytes} (rnd : Nat → K) :
      lib.Builds bm cs e → IssuedBytes bm cs e priv del p ap b → del = some delB → lib.serde.policyDec polB = some q →
      lib.serde.accessPolicyParse str = some .all → pyGenerateDelegatedKey lib.toLib delB b str polB rnd = .ok b' →
      b'.length < 2 ^ 32 → IssuedBytes bm cs e priv del p ap b'
  | delegateLater {lib : FfiLib K QP P Q T Key Nonce} {p q : Policy} {l : List Change} {ap ap' : AccessPolicy} {str : String} {polB delB b b' : Bytes}
      (rnd : Nat → K) : lib.Builds bm cs e → IssuedBytes bm cs e priv del p ap b → del = some delB → p.Evolves l q → ap.Restricts p ap' → ap' ≠ .all →
      lib.serde.policyDec polB = some q → lib.serde.accessPolicyParse str = some ap' →
      pyGenerateDelegatedKey lib.toLib delB b str polB rnd = .ok b' → b'.length < 2 ^ 32 → IssuedBytes bm cs e priv del p ap' b'
  | delegateEarlier {lib : FfiLib K QP P Q T Key Nonce} {p q : Policy} {l : List Change} {ap ap' : AccessPolicy} {str : String} {polB delB b b' : Bytes}
      (rnd : Nat → K) : lib.Builds bm cs e → IssuedBytes bm cs e priv del p ap b → del = some delB → q.Reachable → q.Evolves l p → ap.Restricts q ap' →
      ap' ≠ .all → lib.serde.policyDec polB = some q → lib.serde.accessPolicyParse str = some ap' →
      pyGenerateDelegatedKey lib.toLib delB b str polB rnd = .ok b' → b'.length < 2 ^ 32 → IssuedBytes bm cs e priv del q ap' b'

/-- `RotationCalls lib p l q`: by calls which rotate attributes, through any of the interfaces, the policy `p` becomes `q`; each call is given a text of the policy
read from the answer of the call before.  `l` are the attributes rotated, in order. -/
inductive RotationCalls (lib : FfiLib K QP P Q T Key Nonce) : Policy → List Attribute → Policy → Prop
  | nil (p : Policy) : RotationCalls lib p [] p
  | python {p q r : Policy} {polB attB b : Bytes} {atts l : List Attribute} : lib.serde.policyDec polB = some p → lib.serde.attributesDec attB = some atts →
      pyRotateAttributes lib.serde attB polB = .ok b → lib.serde.policyDec b = some q → RotationCalls lib q l r → RotationCalls lib p (atts ++ l) r
  | c {p q r : Policy} {policy attributes : Option Bytes} {b : Bytes} {atts l : List Attribute}
      {s : FState (EncryptionCache P T) (DecryptionKey K QP Q)} : StrArg policy lib.serde.policyDec p → StrArg attributes lib.serde.attributesDec atts →
      Gives (hRotateAttributes lib attributes policy) s .out b → lib.serde.policyDec b = some q → RotationCalls lib q l r → RotationCalls lib p (atts ++ l) r
  | js {p q r : Policy} {polB attB b : Bytes} {atts l : List Attribute} : lib.serde.policyDec polB = some p → lib.serde.attributesDec attB = some atts →
      jsRotateAttributes lib.serde attB polB = .ok b → lib.serde.policyDec b = some q → RotationCalls lib q l r → RotationCalls lib p (atts ++ l) r

end Abe
