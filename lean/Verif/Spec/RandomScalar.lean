import Verif.Spec.SystemIntegrity
import Verif.Model.RandomScalar

/-!
# Games with the scalars that the code draws

As `selectiveGame` and `systemGame`, but the scalars of the master key, of the user keys and of the ciphertexts come from a given source.
-/

namespace Abe

variable {K P Q QP T Key Nonce : Type} [Field K] [DecidableEq K] [AddCommGroup P] [Module K P] [AddCommGroup Q] [Module K Q]
  [AddCommGroup T] [Module K T]

/-- No test, however long it computes and whatever it draws itself, accepts one distribution with a probability that differs by more than `ε` from that with
which it accepts the other. -/
def Near {α : Type} (ε : ℝ) (D E : PMF α) : Prop := ∀ test : α → PMF Bool, |prob (D.bind test) - prob (E.bind test)| ≤ ε

/-- User keys from the key generation of the engine, with scalars from `D`. -/
noncomputable def userKeysFrom (D : PMF K) (c : Curve K P Q QP T) (priv : MasterPrivateKey K) (p : Policy) (ap : AccessPolicy) :
    PMF (Option (DecryptionKey K QP Q)) :=
  (genRandomScalarVector D (keyDraws p ap)).map fun r => (engineGenerateUserKey (bls c) p priv ap (pad r)).toOption

/-- The selective game with scalars from `D`. -/
noncomputable def selectiveGameFrom [Fintype K] (D : PMF K) (c : Curve K P Q QP T) (t : Target) (size : Nat) (gamma : List UInt32)
    (A : MasterPublicKey P T → DelegationKey Q → Attacker K P Q QP T) : PMF Bool :=
  D.bind fun s => D.bind fun y => (PMF.uniformOfFintype Bool).bind fun b => (genRandomScalarVector D size).bind fun rnd =>
    match generateMasterKey (bls c) size (pad rnd) y with
    | .ok mk => ((A mk.pubKey mk.delKey).exec (userKeysFrom D c mk.privKey)
        (fun m0 m1 => (encrypt (bls c) t (if b then m1 else m0) gamma mk.pubKey s).toOption) false).map (· == b)
    | _ => PMF.uniformOfFintype Bool

/-- At most `n` scalars are drawn for the keys that the attacker asks for, however the game goes. -/
def Attacker.Within : Attacker K P Q QP T → Nat → Prop
  | .guess _, _ => True
  | .toss next, n => ∀ x, (next x).Within n
  | .choose _ next, n => ∀ x, (next x).Within n
  | .key p ap next, n => keyDraws p ap ≤ n ∧ ∀ k, (next k).Within (n - keyDraws p ap)
  | .challenge _ _ next, n => ∀ x, (next x).Within n

/-- A message with fresh randomness: the scalar of the encapsulation from `D`, the encapsulated element from `E`. -/
noncomputable def sendFreshFrom [Fintype Nonce] [Nonempty Nonce] (D E : PMF K) (e : External Key Nonce) (c : Curve K P Q QP T) (cs : Codecs K P Q T) (t : Target)
    (max : Nat) (pub : MasterPublicKey P T) (p : Policy) (attrs : List Attribute) (m : HybridMsg) : PMF (Option (Bytes × List Bytes)) :=
  D.bind fun s => E.bind fun x => (PMF.uniformOfFintype (Fin (m.blocks.length + 1) → Nonce)).map fun ν =>
    (encryptHybrid e c cs t max p pub attrs m (x • c.genT) s (padNonce ν)).toOption

/-- The messages of the game of all messages, with scalars from `D` and elements from `E`. -/
noncomputable def sendManyFrom [Fintype Nonce] [Nonempty Nonce] (D E : PMF K) (e : External Key Nonce) (c : Curve K P Q QP T) (cs : Codecs K P Q T) (t : Target)
    (max : Nat) (pub : MasterPublicKey P T) {q : Nat} (posts : Fin q → Policy × List Attribute) (sel : Nat → HybridMsg → HybridMsg → HybridMsg) (n : Nat)
    (m0 m1 : HybridMsg) : PMF (Option (Bytes × List Bytes)) :=
  if h : n < q then sendFreshFrom D E e c cs t max pub (posts ⟨n, h⟩).1 (posts ⟨n, h⟩).2 (sel n m0 m1) else .pure none

/-- The game of all messages over the life of a policy, with scalars from `D` and encapsulated elements from `E`. -/
noncomputable def systemGameFrom [Fintype K] [Fintype Nonce] [Nonempty Nonce] (D E : PMF K) (e : External Key Nonce) (c : Curve K P Q QP T) (cs : Codecs K P Q T)
    (t : Target) (max : Nat) (p0 : Policy) {q : Nat} (posts : Fin q → Policy × List Attribute)
    (A : MasterPublicKey P T → DelegationKey Q → HybridAttacker K Q QP) : PMF Bool :=
  D.bind fun y => (PMF.uniformOfFintype Bool).bind fun b => (genRandomScalarVector D p0.maxAttributeCreations.toNat).bind fun rnd =>
    match engineGenerateMasterKey (bls c) p0 (pad rnd) y with
    | .ok mk => ((A mk.pubKey mk.delKey).execMany (userKeysFrom D c mk.privKey)
        (sendManyFrom D E e c cs t max mk.pubKey posts fun _ m0 m1 => if b then m1 else m0) 0).map (· == b)
    | _ => PMF.uniformOfFintype Bool

/-- At most `n` scalars are drawn for the keys that the attacker asks for. -/
def HybridAttacker.Within : HybridAttacker K Q QP → Nat → Prop
  | .guess _, _ => True
  | .toss next, n => ∀ x, (next x).Within n
  | .choose _ next, n => ∀ x, (next x).Within n
  | .key p ap next, n => keyDraws p ap ≤ n ∧ ∀ k, (next k).Within (n - keyDraws p ap)
  | .challenge _ _ next, n => ∀ x, (next x).Within n

/-- As `SystemForger.exec`, with scalars of the encapsulations from `D` and encapsulated elements from `E`. -/
noncomputable def SystemForger.execFrom [Fintype Nonce] [Nonempty Nonce] {q : Nat} (D E : PMF K) (e : External Key Nonce) (max : Nat)
    (keys : Policy → AccessPolicy → PMF (Option (DecryptionKey K QP Q))) (hdr : Fin q → K → K → Option Metadata → Nonce → Option (Key × Bytes)) :
    SystemForger K Q QP q → (Fin q → Session Key) → PMF (Option (Fin q))
  | .stop, _ => .pure none
  | .choose _ next, σ => (PMF.uniformOfFintype _).bind fun x => (next x).execFrom D E e max keys hdr σ
  | .key p ap next, σ => (keys p ap).bind fun k => (next k).execFrom D E e max keys hdr σ
  | .header j m next, σ =>
    if (σ j).asked then (next none).execFrom D E e max keys hdr σ
    else D.bind fun s => E.bind fun x => (PMF.uniformOfFintype Nonce).bind fun ν =>
      (next ((hdr j s x m ν).map Prod.snd)).execFrom D E e max keys hdr
        (Function.update σ j { asked := true, key := (hdr j s x m ν).map Prod.fst, metaData := m, blocks := [] })
  | .block j uid n plaintext next, σ =>
    (PMF.uniformOfFintype Nonce).bind fun ν =>
      match (σ j).key.bind fun k => (encryptHybridBlock e max k uid n plaintext ν).toOption with
      | none => (next none).execFrom D E e max keys hdr σ
      | some b => (next (some b)).execFrom D E e max keys hdr (Function.update σ j { σ j with blocks := (uid, n, b) :: (σ j).blocks })
  | .tryBlock j uid n b next, σ =>
    match (σ j).key.bind fun k => (decryptHybridBlock e max k uid n b).toOption with
    | none => (next none).execFrom D E e max keys hdr σ
    | some x => if (uid, n, b) ∈ (σ j).blocks then (next (some x)).execFrom D E e max keys hdr σ else .pure (some j)
  | .tryTail j tail next, σ =>
    match (σ j).key.bind fun k => readTail e k tail with
    | none => (next none).execFrom D E e max keys hdr σ
    | some m => if m = .default ∨ (σ j).metaData = some m then (next (some m)).execFrom D E e max keys hdr σ else .pure (some j)

/-- The game of forgeries over the life of a policy, with scalars from `D` and encapsulated elements from `E`. -/
noncomputable def systemForgeryGameFrom [Fintype Nonce] [Nonempty Nonce] (D E : PMF K) (e : External Key Nonce) (c : Curve K P Q QP T) (cs : Codecs K P Q T)
    (t : Target) (max : Nat) (p0 : Policy) {q : Nat} (posts : Fin q → Policy × List Attribute)
    (A : MasterPublicKey P T → DelegationKey Q → SystemForger K Q QP q) : PMF Bool :=
  D.bind fun y => (genRandomScalarVector D p0.maxAttributeCreations.toNat).bind fun rnd =>
    (match engineGenerateMasterKey (bls c) p0 (pad rnd) y with
    | .ok mk => (A mk.pubKey mk.delKey).execFrom D E e max (userKeysFrom D c mk.privKey) (fun j s x m ν =>
        (encryptHybridHeader e (bls c) cs t (posts j).1 mk.pubKey (posts j).2 m (x • c.genT) s ν).toOption.map fun h =>
          (h.symmetricKey, h.encryptedHeaderBytes)) fun _ => {}
    | _ => .pure none : PMF (Option (Fin q))).map Option.isSome

/-- At most `n` scalars are drawn for the keys that the attacker asks for. -/
def SystemForger.KeysWithin {q : Nat} : SystemForger K Q QP q → Nat → Prop
  | .stop, _ => True
  | .choose _ next, n => ∀ x, (next x).KeysWithin n
  | .key p ap next, n => keyDraws p ap ≤ n ∧ ∀ k, (next k).KeysWithin (n - keyDraws p ap)
  | .header _ _ next, n => ∀ x, (next x).KeysWithin n
  | .block _ _ _ _ next, n => ∀ x, (next x).KeysWithin n
  | .tryBlock _ _ _ _ next, n => ∀ x, (next x).KeysWithin n
  | .tryTail _ _ next, n => ∀ x, (next x).KeysWithin n

end Abe
