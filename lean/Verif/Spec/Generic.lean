import Verif.Spec.Attack
import Mathlib.Data.Fintype.Pi
import Mathlib.Data.Fintype.BigOperators
import Mathlib.Data.Rat.Defs
import Mathlib.Algebra.Order.Field.Rat
import Mathlib.Tactic.DeriveFintype

/-!
# Attackers that use the groups as black boxes

The security game of attribute-based encryption against attackers in the generic group model: an attacker computes with the group operations and the
pairing, and learns about the results only whether they are equal.  The attacker asks for user keys at any time, chooses the two messages and the attribute
values of the challenge in view of what it has, and guesses which of the messages was encrypted.
-/

namespace Abe

variable {K P Q QP T : Type} [Field K] [DecidableEq K] [AddCommGroup P] [Module K P] [AddCommGroup Q] [Module K Q]
  [AddCommGroup T] [Module K T]

/-- The scalars drawn in a game with at most `k` user keys: private scalars and secret of the master key, `w` scalars for each user key, the scalar of the
challenge. -/
inductive Coin (size k w : Nat)
  | t (i : Fin size)
  | y
  | r (j : Fin k) (i : Fin w)
  | s
  deriving DecidableEq, Fintype

/-- An outcome of the random generator. -/
abbrev Coins (K : Type) (size k w : Nat) : Type := Coin size k w → K

namespace Coins

variable {size k w : Nat}

/-- Draws for the master key. -/
def master (ω : Coins K size k w) (i : Nat) : K := if h : i < size then ω (.t ⟨i, h⟩) else 0

/-- Draws for the `j`-th user key. -/
def key (ω : Coins K size k w) (j i : Nat) : K := if h : j < k ∧ i < w then ω (.r ⟨j, h.1⟩ ⟨i, h.2⟩) else 0

end Coins

/-- A comparison with the neutral element of an element computed from the view, in one of the three groups. -/
inductive Query (K : Type)
  | p (coefs : Nat → K)
  | q (coefs : Nat → K)
  | t (σ : Strategy K)

/-- A linear combination of a list of elements. -/
def combine {M : Type} [AddCommGroup M] [Module K M] (coefs : Nat → K) (l : List M) : M := (l.zipIdx.map fun x => coefs x.2 • x.1).sum

/-- The comparison succeeds. -/
def Query.Holds (c : Curve K P Q QP T) (v : View P Q T) : Query K → Prop
  | .p coefs => combine coefs v.p = 0
  | .q coefs => combine coefs v.q = 0
  | .t σ => σ.eval c v = 0

/-- An adaptive attacker. -/
inductive Adversary (K : Type)
  /-- end of the game -/
  | guess (b : Bool)
  /-- a comparison and what to do after its result -/
  | compare (q : Query K) (yes no : Adversary K)
  /-- asks for a user key -/
  | key (p : Policy) (ap : AccessPolicy) (next : Adversary K)
  /-- asks for the encryption, for the values `gamma`, of one of two messages -/
  | challenge (gamma : List UInt32) (m0 m1 : Strategy K) (next : Adversary K)

/-- What has been handed out. -/
structure GameState (K P Q QP T : Type) where
  master : MasterKey K P Q T
  keys : List (DecryptionKey K QP Q)
  ct : Option (CipherText P T)

/-- The group elements known to the attacker. -/
def GameState.view (c : Curve K P Q QP T) (st : GameState K P Q QP T) : View P Q T where
  p := c.genP :: st.master.pubKey.tI ++ st.ct.toList.flatMap fun x => x.eI
  q := c.genQ :: st.master.delKey.invTI ++ st.keys.flatMap fun k => k.rawDI
  t := c.genT :: st.master.pubKey.y :: st.ct.toList.map fun x => x.ePrime

open Classical in
/-- The game from a state on, where the challenger encrypts message number `b`.  A request that fails leaves the state unchanged, as does a second
challenge. -/
noncomputable def Adversary.run (c : Curve K P Q QP T) (t : Target) {size k w : Nat} (ω : Coins K size k w) (b : Bool) :
    Adversary K → GameState K P Q QP T → Bool
  | .guess g, _ => g
  | .compare q yes no, st => if q.Holds c (st.view c) then yes.run c t ω b st else no.run c t ω b st
  | .key p ap next, st =>
    match engineGenerateUserKey (bls c) p st.master.privKey ap (ω.key st.keys.length) with
    | .ok x => next.run c t ω b { st with keys := st.keys ++ [x] }
    | _ => next.run c t ω b st
  | .challenge gamma m0 m1 next, st =>
    match st.ct, encrypt (bls c) t ((if b then m1 else m0).eval c (st.view c)) gamma st.master.pubKey (ω .s) with
    | none, .ok x => next.run c t ω b { st with ct := some x }
    | _, _ => next.run c t ω b st

/-- The whole game; when the master key cannot be made nothing is handed out. -/
noncomputable def Adversary.play (c : Curve K P Q QP T) (t : Target) {size k w : Nat} (A : Adversary K) (ω : Coins K size k w) (b : Bool) : Bool :=
  match generateMasterKey (bls c) size ω.master (ω .y) with
  | .ok mk => A.run c t ω b ⟨mk, [], none⟩
  | _ => false

/-- The probability, over the random generator, that the attacker guesses `true` when message number `b` is encrypted. -/
noncomputable def Adversary.prob [Fintype K] (c : Curve K P Q QP T) (t : Target) (size k w : Nat) (A : Adversary K) (b : Bool) : ℚ :=
  (Finset.univ.filter fun ω : Coins K size k w => A.play c t ω b = true).card / Fintype.card (Coins K size k w)

/-- The largest number of comparisons. -/
def Adversary.comparisons : Adversary K → Nat
  | .guess _ => 0
  | .compare _ yes no => max yes.comparisons no.comparisons + 1
  | .key _ _ next => next.comparisons
  | .challenge _ _ _ next => next.comparisons

/-- The rules of the game, on every path: keys are made under policies built by the operations on policies, at most `k` of them, each with at most `w` draws;
there is one challenge, and no key, asked for before or after, is authorised for it.  `users` are the keys asked for and `target` the values of the
challenge so far. -/
def Adversary.Legit (w : Nat) : Adversary K → (k : Nat) → (users : List (Policy × AccessPolicy)) → (target : Option (List UInt32)) → Prop
  | .guess _, _, _, _ => True
  | .compare _ yes no, k, users, target => yes.Legit w k users target ∧ no.Legit w k users target
  | .key _ _ _, 0, _, _ => False
  | .key p ap next, k + 1, users, target =>
    p.Reachable ∧ (∀ msp, policyToMsp p ap = .ok msp → msp.nbCol ≤ w + 1) ∧
      (∀ gamma, target = some gamma → ¬ ap.Sat p fun b => ∃ v, p.HasValue b v ∧ v ∈ gamma) ∧ next.Legit w k ((p, ap) :: users) target
  | .challenge gamma _ _ next, k, users, target =>
    target = none ∧ (∀ u ∈ users, ¬ u.2.Sat u.1 fun b => ∃ v, u.1.HasValue b v ∧ v ∈ gamma) ∧ next.Legit w k users (some gamma)

end Abe
