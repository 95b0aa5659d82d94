import Verif.Spec.Integrity
import Verif.Spec.SystemGame

/-!
# Integrity of all messages over the life of a policy

Many messages are sent, each for its own attributes under the policy of its moment.  The attacker wants the readers of one of them to accept something which was
not written for this message: also a block of another message.
-/

namespace Abe

variable {K P Q QP T Key Nonce : Type} [Field K] [DecidableEq K] [AddCommGroup P] [Module K P] [AddCommGroup Q] [Module K Q]
  [AddCommGroup T] [Module K T]

/-- An attacker on `q` messages. -/
inductive SystemForger (K Q QP : Type) (q : Nat)
  /-- gives up -/
  | stop
  /-- draws one of `n + 1` values -/
  | choose (n : Nat) (next : Fin (n + 1) → SystemForger K Q QP q)
  /-- asks for a user key -/
  | key (p : Policy) (ap : AccessPolicy) (next : Option (DecryptionKey K QP Q) → SystemForger K Q QP q)
  /-- asks the sender for the header of message `j` with metadata of its choice; this is done once for each message -/
  | header (j : Fin q) (m : Option Metadata) (next : Option Bytes → SystemForger K Q QP q)
  /-- asks the sender for a block of its choice of message `j` -/
  | block (j : Fin q) (uid : Bytes) (n : Nat) (plaintext : Bytes) (next : Option Bytes → SystemForger K Q QP q)
  /-- gives a block to a reader of message `j` -/
  | tryBlock (j : Fin q) (uid : Bytes) (n : Nat) (b : Bytes) (next : Option Bytes → SystemForger K Q QP q)
  /-- gives the header of message `j` to a reader, with other bytes behind the encapsulation -/
  | tryTail (j : Fin q) (tail : Bytes) (next : Option Metadata → SystemForger K Q QP q)

/-- The rule of the game: all keys asked for satisfy `allowed`. -/
def SystemForger.Asks {q : Nat} (allowed : Policy → AccessPolicy → Prop) : SystemForger K Q QP q → Prop
  | .stop => True
  | .choose _ next => ∀ x, (next x).Asks allowed
  | .key p ap next => allowed p ap ∧ ∀ k, (next k).Asks allowed
  | .header _ _ next => ∀ x, (next x).Asks allowed
  | .block _ _ _ _ next => ∀ x, (next x).Asks allowed
  | .tryBlock _ _ _ _ next => ∀ x, (next x).Asks allowed
  | .tryTail _ _ next => ∀ x, (next x).Asks allowed

/-- An attacker with its environment: a source of user keys, and one of headers with their symmetric keys, from an element and a scalar which are drawn for each
message.  The outcome is the first message whose readers accept something that was not written for it. -/
noncomputable def SystemForger.exec [Fintype K] [Fintype Nonce] [Nonempty Nonce] {q : Nat} (e : External Key Nonce) (max : Nat)
    (keys : Policy → AccessPolicy → PMF (Option (DecryptionKey K QP Q))) (hdr : Fin q → K → K → Option Metadata → Nonce → Option (Key × Bytes)) :
    SystemForger K Q QP q → (Fin q → Session Key) → PMF (Option (Fin q))
  | .stop, _ => .pure none
  | .choose _ next, σ => (PMF.uniformOfFintype _).bind fun x => (next x).exec e max keys hdr σ
  | .key p ap next, σ => (keys p ap).bind fun k => (next k).exec e max keys hdr σ
  | .header j m next, σ =>
    if (σ j).asked then (next none).exec e max keys hdr σ
    else (PMF.uniformOfFintype K).bind fun s => (PMF.uniformOfFintype K).bind fun x => (PMF.uniformOfFintype Nonce).bind fun ν =>
      (next ((hdr j s x m ν).map Prod.snd)).exec e max keys hdr
        (Function.update σ j { asked := true, key := (hdr j s x m ν).map Prod.fst, metaData := m, blocks := [] })
  | .block j uid n plaintext next, σ =>
    (PMF.uniformOfFintype Nonce).bind fun ν =>
      match (σ j).key.bind fun k => (encryptHybridBlock e max k uid n plaintext ν).toOption with
      | none => (next none).exec e max keys hdr σ
      | some b => (next (some b)).exec e max keys hdr (Function.update σ j { σ j with blocks := (uid, n, b) :: (σ j).blocks })
  | .tryBlock j uid n b next, σ =>
    match (σ j).key.bind fun k => (decryptHybridBlock e max k uid n b).toOption with
    | none => (next none).exec e max keys hdr σ
    | some x => if (uid, n, b) ∈ (σ j).blocks then (next (some x)).exec e max keys hdr σ else .pure (some j)
  | .tryTail j tail next, σ =>
    match (σ j).key.bind fun k => readTail e k tail with
    | none => (next none).exec e max keys hdr σ
    | some m => if m = .default ∨ (σ j).metaData = some m then (next (some m)).exec e max keys hdr σ else .pure (some j)

/-- The game with given scalars of the master key, which is made under the policy `p0`. -/
noncomputable def systemForgeryRun [Fintype K] [Fintype Nonce] [Nonempty Nonce] (e : External Key Nonce) (c : Curve K P Q QP T) (cs : Codecs K P Q T) (t : Target)
    (max : Nat) (p0 : Policy) {q : Nat} (posts : Fin q → Policy × List Attribute) (A : MasterPublicKey P T → DelegationKey Q → SystemForger K Q QP q) (y : K)
    (rnd : Fin p0.maxAttributeCreations.toNat → K) : PMF (Option (Fin q)) :=
  match engineGenerateMasterKey (bls c) p0 (pad rnd) y with
  | .ok mk => (A mk.pubKey mk.delKey).exec e max (userKeys c mk.privKey) (fun j s x m ν =>
      (encryptHybridHeader e (bls c) cs t (posts j).1 mk.pubKey (posts j).2 m (x • c.genT) s ν).toOption.map fun h =>
        (h.symmetricKey, h.encryptedHeaderBytes)) fun _ => {}
  | _ => .pure none

/-- The game: message `j` is for the attributes `(posts j).2` under the policy `(posts j).1`.  The outcome is whether the attacker wins. -/
noncomputable def systemForgeryGame [Fintype K] [Fintype Nonce] [Nonempty Nonce] (e : External Key Nonce) (c : Curve K P Q QP T) (cs : Codecs K P Q T)
    (t : Target) (max : Nat) (p0 : Policy) {q : Nat} (posts : Fin q → Policy × List Attribute)
    (A : MasterPublicKey P T → DelegationKey Q → SystemForger K Q QP q) : PMF Bool :=
  (PMF.uniformOfFintype K).bind fun y => (PMF.uniformOfFintype (Fin p0.maxAttributeCreations.toNat → K)).bind fun rnd =>
    (systemForgeryRun e c cs t max p0 posts A y rnd).map Option.isSome

end Abe
