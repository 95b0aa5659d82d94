import Verif.Spec.HybridGame

/-!
# Integrity of hybrid messages

The game of an attacker who wants readers of an honest header to accept something the sender did not write: a block which the sender did not make for that
identifier and number, or other metadata behind the same encapsulation.
-/

namespace Abe

variable {K P Q QP T Key Nonce : Type} [Field K] [DecidableEq K] [AddCommGroup P] [Module K P] [AddCommGroup Q] [Module K Q]
  [AddCommGroup T] [Module K T]

/-- An attacker from some point of the game on: what it does next may depend in any way on what it was given. -/
inductive Forger (K Q QP : Type)
  /-- gives up -/
  | stop
  /-- draws one of `n + 1` values -/
  | choose (n : Nat) (next : Fin (n + 1) → Forger K Q QP)
  /-- asks for a user key -/
  | key (p : Policy) (ap : AccessPolicy) (next : Option (DecryptionKey K QP Q) → Forger K Q QP)
  /-- asks the sender for a header with metadata of its choice; this is done once -/
  | header (m : Option Metadata) (next : Option Bytes → Forger K Q QP)
  /-- asks the sender for a block of its choice under the key of the header -/
  | block (uid : Bytes) (n : Nat) (plaintext : Bytes) (next : Option Bytes → Forger K Q QP)
  /-- gives a block to a reader of the header -/
  | tryBlock (uid : Bytes) (n : Nat) (b : Bytes) (next : Option Bytes → Forger K Q QP)
  /-- gives the header to a reader, with other bytes behind the encapsulation -/
  | tryTail (tail : Bytes) (next : Option Metadata → Forger K Q QP)

/-- The rule of the game, as before. -/
def Forger.Fair (gamma : List UInt32) : Forger K Q QP → Prop
  | .stop => True
  | .choose _ next => ∀ x, (next x).Fair gamma
  | .key p ap next => p.Reachable ∧ (¬ ap.Sat p fun b => ∃ v, p.HasValue b v ∧ v ∈ gamma) ∧ ∀ k, (next k).Fair gamma
  | .header _ next => ∀ x, (next x).Fair gamma
  | .block _ _ _ next => ∀ x, (next x).Fair gamma
  | .tryBlock _ _ _ next => ∀ x, (next x).Fair gamma
  | .tryTail _ next => ∀ x, (next x).Fair gamma

/-- What a holder of the symmetric key of a header reads in the bytes that follow the encapsulation. -/
def readTail (e : External Key Nonce) (key : Key) (tail : Bytes) : Option Metadata :=
  if tail = [] then some .default
  else if tail.length < e.nonceLen + 4 then none
  else
    let size := (ofBe32 ((tail.drop e.nonceLen).take 4)).toNat
    let body := tail.drop (e.nonceLen + 4)
    if body.length < size then none
    else do
      let nonce ← (e.nonceDec (tail.take e.nonceLen)).toOption
      let mb ← (e.decrypt key (body.take size) nonce none).toOption
      (e.metaDec mb).toOption

/-- What the sender did: whether a header was made, its key if this succeeded, the metadata in it, the blocks made with the identifiers and numbers they
are for. -/
structure Session (Key : Type) where
  asked : Bool := false
  key : Option Key := none
  metaData : Option Metadata := none
  blocks : List (Bytes × Nat × Bytes) := []

/-- An attacker with its environment: a source of user keys and one of headers with their symmetric keys.  The outcome is whether a reader accepts a block which
was not made for the identifier and number it is given with, or metadata which are neither those of the sender nor the default ones (of a header without
metadata). -/
noncomputable def Forger.exec [Fintype Nonce] [Nonempty Nonce] (e : External Key Nonce) (max : Nat)
    (keys : Policy → AccessPolicy → PMF (Option (DecryptionKey K QP Q))) (hdr : Option Metadata → Nonce → Option (Key × Bytes)) :
    Forger K Q QP → Session Key → PMF Bool
  | .stop, _ => .pure false
  | .choose _ next, σ => (PMF.uniformOfFintype _).bind fun x => (next x).exec e max keys hdr σ
  | .key p ap next, σ => (keys p ap).bind fun k => (next k).exec e max keys hdr σ
  | .header m next, σ =>
    if σ.asked then (next none).exec e max keys hdr σ
    else (PMF.uniformOfFintype Nonce).bind fun ν =>
      (next ((hdr m ν).map Prod.snd)).exec e max keys hdr { asked := true, key := (hdr m ν).map Prod.fst, metaData := m, blocks := [] }
  | .block uid n plaintext next, σ =>
    (PMF.uniformOfFintype Nonce).bind fun ν =>
      match σ.key.bind fun k => (encryptHybridBlock e max k uid n plaintext ν).toOption with
      | none => (next none).exec e max keys hdr σ
      | some b => (next (some b)).exec e max keys hdr { σ with blocks := (uid, n, b) :: σ.blocks }
  | .tryBlock uid n b next, σ =>
    match σ.key.bind fun k => (decryptHybridBlock e max k uid n b).toOption with
    | none => (next none).exec e max keys hdr σ
    | some x => if (uid, n, b) ∈ σ.blocks then (next (some x)).exec e max keys hdr σ else .pure true
  | .tryTail tail next, σ =>
    match σ.key.bind fun k => readTail e k tail with
    | none => (next none).exec e max keys hdr σ
    | some m => if m = .default ∨ σ.metaData = some m then (next (some m)).exec e max keys hdr σ else .pure true

/-- The game with given scalars of the master key, of the encapsulated element and of the encapsulation. -/
noncomputable def forgeryRun [Fintype K] [Fintype Nonce] [Nonempty Nonce] (e : External Key Nonce) (c : Curve K P Q QP T) (cs : Codecs K P Q T) (t : Target)
    (max size : Nat) (p : Policy) (attrs : List Attribute) (A : MasterPublicKey P T → DelegationKey Q → Forger K Q QP) (s y : K) (rnd : Fin size → K) (x : K) :
    PMF Bool :=
  match generateMasterKey (bls c) size (pad rnd) y with
  | .ok mk => (A mk.pubKey mk.delKey).exec e max (userKeys c mk.privKey) (fun m ν =>
      (encryptHybridHeader e (bls c) cs t p mk.pubKey attrs m (x • c.genT) s ν).toOption.map fun h => (h.symmetricKey, h.encryptedHeaderBytes)) {}
  | _ => .pure false

/-- The game: the header is for the attributes `attrs` of the policy `p`. -/
noncomputable def forgeryGame [Fintype K] [Fintype Nonce] [Nonempty Nonce] (e : External Key Nonce) (c : Curve K P Q QP T) (cs : Codecs K P Q T) (t : Target)
    (max size : Nat) (p : Policy) (attrs : List Attribute) (A : MasterPublicKey P T → DelegationKey Q → Forger K Q QP) : PMF Bool :=
  (PMF.uniformOfFintype K).bind fun s => (PMF.uniformOfFintype K).bind fun y => (PMF.uniformOfFintype (Fin size → K)).bind fun rnd =>
    (PMF.uniformOfFintype K).bind fun x => forgeryRun e c cs t max size p attrs A s y rnd x

/-- The same with the symmetric scheme alone: the key is derived from a random element of the target group, the header consists of the bytes that would follow
the encapsulation, and there are no user keys. -/
noncomputable def symmetricForgery [Fintype K] [Fintype Nonce] [Nonempty Nonce] (e : External Key Nonce) (c : Curve K P Q QP T) (cs : Codecs K P Q T)
    (max : Nat) (A : Forger K Q QP) : PMF Bool :=
  (PMF.uniformOfFintype K).bind fun x => A.exec e max (fun _ _ => .pure none) (fun m ν =>
    (derivedKey e cs (x • c.genT)).bind fun kb => (e.keyDec kb).toOption.bind fun key =>
      (encryptSymmetric e max kb ⟨m, []⟩ fun _ => ν).toOption.map fun r => (key, r.1)) {}

end Abe
