import Verif.Spec.Game
import Verif.Model.Hybrid

/-!
# Confidentiality of hybrid messages

The selective game for messages of the hybrid interface: a header, possibly with metadata, and blocks encrypted with the key of the header.
-/

namespace Abe

variable {K P Q QP T Key Nonce : Type} [Field K] [DecidableEq K] [AddCommGroup P] [Module K P] [AddCommGroup Q] [Module K Q]
  [AddCommGroup T] [Module K T]

/-- What is sent: metadata for the header, and blocks with the identifier and number they are bound to. -/
structure HybridMsg where
  metaData : Option Metadata
  blocks : List (Bytes × Nat × Bytes)

/-- The blocks, with nonces from number `i` on. -/
def encryptBlocks (e : External Key Nonce) (max : Nat) (key : Key) (nonce : Nat → Nonce) : List (Bytes × Nat × Bytes) → Nat → Out (List Bytes)
  | [], _ => .ok []
  | (uid, n, plaintext) :: bs, i => do
    let b ← encryptHybridBlock e max key uid n plaintext (nonce i)
    let r ← encryptBlocks e max key nonce bs (i + 1)
    .ok (b :: r)

/-- A message of the hybrid interface: the bytes of the header and those of the blocks. -/
def encryptHybrid (e : External Key Nonce) (c : Curve K P Q QP T) (cs : Codecs K P Q T) (t : Target) (max : Nat) (p : Policy) (pub : MasterPublicKey P T)
    (attrs : List Attribute) (msg : HybridMsg) (random : T) (s : K) (nonce : Nat → Nonce) : Out (Bytes × List Bytes) := do
  let h ← encryptHybridHeader e (bls c) cs t p pub attrs msg.metaData random s (nonce 0)
  let bs ← encryptBlocks e max h.symmetricKey nonce msg.blocks 1
  .ok (h.encryptedHeaderBytes, bs)

/-- The nonces for a message. -/
def padNonce {n : Nat} (r : Fin (n + 1) → Nonce) (i : Nat) : Nonce := if h : i < n + 1 then r ⟨i, h⟩ else r 0

/-- An attacker on the hybrid interface. -/
inductive HybridAttacker (K Q QP : Type)
  /-- end of the game -/
  | guess (b : Bool)
  /-- draws a random scalar -/
  | toss (next : K → HybridAttacker K Q QP)
  /-- draws one of `n + 1` values -/
  | choose (n : Nat) (next : Fin (n + 1) → HybridAttacker K Q QP)
  /-- asks for a user key -/
  | key (p : Policy) (ap : AccessPolicy) (next : Option (DecryptionKey K QP Q) → HybridAttacker K Q QP)
  /-- asks for the encryption of one of two messages -/
  | challenge (m0 m1 : HybridMsg) (next : Option (Bytes × List Bytes) → HybridAttacker K Q QP)

/-- An attacker with its environment. -/
noncomputable def HybridAttacker.exec [Fintype K] (keys : Policy → AccessPolicy → PMF (Option (DecryptionKey K QP Q)))
    (chal : HybridMsg → HybridMsg → PMF (Option (Bytes × List Bytes))) : HybridAttacker K Q QP → (used : Bool) → PMF Bool
  | .guess g, _ => .pure g
  | .toss next, used => (PMF.uniformOfFintype K).bind fun x => (next x).exec keys chal used
  | .choose _ next, used => (PMF.uniformOfFintype _).bind fun x => (next x).exec keys chal used
  | .key p ap next, used => (keys p ap).bind fun k => (next k).exec keys chal used
  | .challenge m0 m1 next, used => if used then (next none).exec keys chal true else (chal m0 m1).bind fun x => (next x).exec keys chal true

/-- The rule of the game, as before. -/
def HybridAttacker.Fair (gamma : List UInt32) : HybridAttacker K Q QP → Prop
  | .guess _ => True
  | .toss next => ∀ x, (next x).Fair gamma
  | .choose _ next => ∀ x, (next x).Fair gamma
  | .key p ap next => p.Reachable ∧ (¬ ap.Sat p fun b => ∃ v, p.HasValue b v ∧ v ∈ gamma) ∧ ∀ k, (next k).Fair gamma
  | .challenge _ _ next => ∀ x, (next x).Fair gamma

/-- The game with given scalars of the master key, of the encapsulated element and of the encapsulation. -/
noncomputable def hybridRun [Fintype K] [Fintype Nonce] [Nonempty Nonce] (e : External Key Nonce) (c : Curve K P Q QP T) (cs : Codecs K P Q T) (t : Target)
    (max size : Nat) (p : Policy) (attrs : List Attribute) (A : MasterPublicKey P T → DelegationKey Q → HybridAttacker K Q QP) (s y : K) (b : Bool)
    (rnd : Fin size → K) (x : K) : PMF Bool :=
  match generateMasterKey (bls c) size (pad rnd) y with
  | .ok mk => ((A mk.pubKey mk.delKey).exec (userKeys c mk.privKey) (fun m0 m1 =>
      (PMF.uniformOfFintype (Fin ((if b then m1 else m0).blocks.length + 1) → Nonce)).map fun ν =>
        (encryptHybrid e c cs t max p mk.pubKey attrs (if b then m1 else m0) (x • c.genT) s (padNonce ν)).toOption) false).map (· == b)
  | _ => PMF.uniformOfFintype Bool

/-- The selective game for hybrid messages under the attributes `attrs` of the policy `p`. -/
noncomputable def hybridGame [Fintype K] [Fintype Nonce] [Nonempty Nonce] (e : External Key Nonce) (c : Curve K P Q QP T) (cs : Codecs K P Q T) (t : Target)
    (max size : Nat) (p : Policy) (attrs : List Attribute) (A : MasterPublicKey P T → DelegationKey Q → HybridAttacker K Q QP) : PMF Bool :=
  (PMF.uniformOfFintype K).bind fun s => (PMF.uniformOfFintype K).bind fun y => (PMF.uniformOfFintype Bool).bind fun b =>
    (PMF.uniformOfFintype (Fin size → K)).bind fun rnd => (PMF.uniformOfFintype K).bind fun x => hybridRun e c cs t max size p attrs A s y b rnd x

/-! ### The symmetric scheme alone -/

/-- The same message under a symmetric key: the bytes that follow the encapsulation in the header, and the blocks. -/
def encryptSymmetric (e : External Key Nonce) (max : Nat) (keyBytes : Bytes) (msg : HybridMsg) (nonce : Nat → Nonce) : Out (Bytes × List Bytes) := do
  let key ← e.keyDec keyBytes
  let m ← (match msg.metaData with
    | none => .ok []
    | some m => do
      let mb ← e.metaEnc m
      let em ← e.encrypt key mb (nonce 0) none
      let size ← u32Len em
      .ok (e.nonceEnc (nonce 0) ++ size ++ em) : Out Bytes)
  let bs ← encryptBlocks e max key nonce msg.blocks 1
  .ok (m, bs)

/-- The symmetric key derived from an element of the target group. -/
def derivedKey (e : External Key Nonce) (cs : Codecs K P Q T) (random : T) : Option Bytes := ((cs.gt.enc random).toOption).map fun b => e.shake b e.keyLen

/-- An attacker on the symmetric scheme draws two messages and what it does with the answer. -/
abbrev SymmetricAttacker := PMF (HybridMsg × HybridMsg × (Option (Bytes × List Bytes) → PMF Bool))

/-- One of two messages is encrypted under the key derived from a random element of the target group; there is nothing asymmetric in this game. -/
noncomputable def symmetricGame [Fintype K] [Fintype Nonce] [Nonempty Nonce] (e : External Key Nonce) (c : Curve K P Q QP T) (cs : Codecs K P Q T) (max : Nat)
    (D : SymmetricAttacker) : PMF Bool :=
  (PMF.uniformOfFintype Bool).bind fun b => D.bind fun d => (PMF.uniformOfFintype K).bind fun x =>
    (PMF.uniformOfFintype (Fin ((if b then d.2.1 else d.1).blocks.length + 1) → Nonce)).bind fun ν =>
      (d.2.2 ((derivedKey e cs (x • c.genT)).bind fun kb => (encryptSymmetric e max kb (if b then d.2.1 else d.1) (padNonce ν)).toOption)).map (· == b)

end Abe
