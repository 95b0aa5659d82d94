import Verif.Spec.HybridGame

/-!
# Attackers who modify headers

What anyone can do to an encrypted header with the public key, and a game in which the attacker may have headers opened.
-/

namespace Abe

variable {K P Q QP T Key Nonce : Type} [Field K] [DecidableEq K] [AddCommGroup P] [Module K P] [AddCommGroup Q] [Module K Q]
  [AddCommGroup T] [Module K T]

/-- Replaces the ciphertext in a header by `f` of it and keeps the bytes that follow. -/
def remake (cs : Codecs K P Q T) (t : Target) (f : CipherText P T → Out (CipherText P T)) (header : Bytes) : Out Bytes := do
  let r ← scanU32 header
  let r' ← scanNext r.2 r.1
  let ct ← (cipherTextCodec t cs).dec r'.1
  let ct' ← f ct
  let ek ← (cipherTextCodec t cs).enc ct'
  let size ← u32Len ek
  .ok (size ++ ek ++ r'.2)

/-- Adds an encryption of 0, made with the public key and the scalar `r`. -/
def refresh (c : Curve K P Q QP T) (t : Target) (pub : MasterPublicKey P T) (r : K) (ct : CipherText P T) : Out (CipherText P T) := do
  let z ← encrypt (bls c) t 0 ct.gamma pub r
  .ok ⟨ct.gamma, ct.ePrime + z.ePrime, List.zipWith (· + ·) ct.eI z.eI⟩

/-- Removes attribute number `i`. -/
def narrow (i : Nat) (ct : CipherText P T) : Out (CipherText P T) := .ok ⟨ct.gamma.eraseIdx i, ct.ePrime, ct.eI.eraseIdx i⟩

/-- An attacker who may also have headers opened. -/
inductive OpeningAttacker (K Q QP Key : Type)
  /-- end of the game -/
  | guess (b : Bool)
  /-- draws a random scalar -/
  | toss (next : K → OpeningAttacker K Q QP Key)
  /-- asks for a user key -/
  | key (p : Policy) (ap : AccessPolicy) (next : Option (DecryptionKey K QP Q) → OpeningAttacker K Q QP Key)
  /-- asks for a header with one of two metadata -/
  | challenge (m0 m1 : Metadata) (next : Option Bytes → OpeningAttacker K Q QP Key)
  /-- has a header opened by somebody with a key for `ap` -/
  | opened (p : Policy) (ap : AccessPolicy) (header : Bytes) (next : Option (ClearTextHeader Key) → OpeningAttacker K Q QP Key)

/-- An attacker with its environment; `seen` is the header it was given, which nobody opens for it. -/
noncomputable def OpeningAttacker.exec [Fintype K] (keys : Policy → AccessPolicy → PMF (Option (DecryptionKey K QP Q))) (chal : Metadata → Metadata → PMF (Option Bytes))
    (dec : DecryptionKey K QP Q → Bytes → Option (ClearTextHeader Key)) : OpeningAttacker K Q QP Key → (seen : Option (Option Bytes)) → PMF Bool
  | .guess g, _ => .pure g
  | .toss next, seen => (PMF.uniformOfFintype K).bind fun x => (next x).exec keys chal dec seen
  | .key p ap next, seen => (keys p ap).bind fun k => (next k).exec keys chal dec seen
  | .challenge m0 m1 next, none => (chal m0 m1).bind fun x => (next x).exec keys chal dec (some x)
  | .challenge _ _ next, some x => (next none).exec keys chal dec (some x)
  | .opened p ap header next, seen =>
    if seen = some (some header) then (next none).exec keys chal dec seen
    else (keys p ap).bind fun k => (next (k.bind fun k => dec k header)).exec keys chal dec seen

/-- The rule of the game: keys only for access policies not satisfied by the challenge.  There is no rule on the headers to open, except that the challenge itself
is refused. -/
def OpeningAttacker.Fair (gamma : List UInt32) : OpeningAttacker K Q QP Key → Prop
  | .guess _ => True
  | .toss next => ∀ x, (next x).Fair gamma
  | .key p ap next => p.Reachable ∧ (¬ ap.Sat p fun b => ∃ v, p.HasValue b v ∧ v ∈ gamma) ∧ ∀ k, (next k).Fair gamma
  | .challenge _ _ next => ∀ x, (next x).Fair gamma
  | .opened p _ _ next => p.Reachable ∧ ∀ x, (next x).Fair gamma

/-- The game with given scalars of the master key, of the encapsulated element and of the encapsulation.  Headers are encrypted and opened on target `t`. -/
noncomputable def openingRun [Fintype K] [Fintype Nonce] [Nonempty Nonce] (e : External Key Nonce) (c : Curve K P Q QP T) (cs : Codecs K P Q T) (t : Target)
    (size : Nat) (p : Policy) (attrs : List Attribute) (A : MasterPublicKey P T → DelegationKey Q → OpeningAttacker K Q QP Key) (s y : K) (b : Bool)
    (rnd : Fin size → K) (x : K) : PMF Bool :=
  match generateMasterKey (bls c) size (pad rnd) y with
  | .ok mk => ((A mk.pubKey mk.delKey).exec (userKeys c mk.privKey) (fun m0 m1 => (PMF.uniformOfFintype Nonce).map fun n =>
      (encryptHybridHeader e (bls c) cs t p mk.pubKey attrs (some (if b then m1 else m0)) (x • c.genT) s n).toOption.map fun h => h.encryptedHeaderBytes)
      (fun k header => (decryptHybridHeader e (bls c) cs t k header).toOption) none).map (· == b)
  | _ => PMF.uniformOfFintype Bool

end Abe
