import Verif.Spec.Generic
import Mathlib.Data.Fintype.Prod

/-!
# Recovering an encapsulated element

The game in which a random element of the target group is encrypted, as for the encapsulation of a symmetric key, and a generic attacker proposes candidates
for it.
-/

namespace Abe

variable {K P Q QP T : Type} [Field K] [DecidableEq K] [AddCommGroup P] [Module K P] [AddCommGroup Q] [Module K Q]
  [AddCommGroup T] [Module K T]

/-- An adaptive attacker who ends by proposing some elements. -/
inductive Finder (K : Type)
  | answer (candidates : List (Strategy K))
  | compare (q : Query K) (yes no : Finder K)
  | key (p : Policy) (ap : AccessPolicy) (next : Finder K)
  /-- asks for the encryption of the random element for the values `gamma` -/
  | challenge (gamma : List UInt32) (next : Finder K)

open Classical in
/-- Whether one of the candidates is the element `m • genT`, from a state on; requests are treated as in `Adversary.run`. -/
noncomputable def Finder.run (c : Curve K P Q QP T) (t : Target) {size k w : Nat} (ω : Coins K size k w) (m : K) : Finder K → GameState K P Q QP T → Bool
  | .answer l, st => decide (∃ σ ∈ l, σ.eval c (st.view c) = m • c.genT)
  | .compare q yes no, st => if q.Holds c (st.view c) then yes.run c t ω m st else no.run c t ω m st
  | .key p ap next, st =>
    match engineGenerateUserKey (bls c) p st.master.privKey ap (ω.key st.keys.length) with
    | .ok x => next.run c t ω m { st with keys := st.keys ++ [x] }
    | _ => next.run c t ω m st
  | .challenge gamma next, st =>
    match st.ct, encrypt (bls c) t (m • c.genT) gamma st.master.pubKey (ω .s) with
    | none, .ok x => next.run c t ω m { st with ct := some x }
    | _, _ => next.run c t ω m st

/-- The whole game. -/
noncomputable def Finder.play (c : Curve K P Q QP T) (t : Target) {size k w : Nat} (A : Finder K) (ω : Coins K size k w) (m : K) : Bool :=
  match generateMasterKey (bls c) size ω.master (ω .y) with
  | .ok mk => A.run c t ω m ⟨mk, [], none⟩
  | _ => false

/-- The probability that one of the candidates is the element, over the random generator and the element. -/
noncomputable def Finder.prob [Fintype K] (c : Curve K P Q QP T) (t : Target) (size k w : Nat) (A : Finder K) : ℚ :=
  (Finset.univ.filter fun x : K × Coins K size k w => A.play c t x.2 x.1 = true).card / Fintype.card (K × Coins K size k w)

/-- The largest number of comparisons. -/
def Finder.comparisons : Finder K → Nat
  | .answer _ => 0
  | .compare _ yes no => max yes.comparisons no.comparisons + 1
  | .key _ _ next => next.comparisons
  | .challenge _ next => next.comparisons

/-- The largest number of candidates. -/
def Finder.candidates : Finder K → Nat
  | .answer l => l.length
  | .compare _ yes no => max yes.candidates no.candidates
  | .key _ _ next => next.candidates
  | .challenge _ next => next.candidates

/-- The rules of the game, as in `Adversary.Legit`. -/
def Finder.Legit (w : Nat) : Finder K → (k : Nat) → (users : List (Policy × AccessPolicy)) → (target : Option (List UInt32)) → Prop
  | .answer _, _, _, _ => True
  | .compare _ yes no, k, users, target => yes.Legit w k users target ∧ no.Legit w k users target
  | .key _ _ _, 0, _, _ => False
  | .key p ap next, k + 1, users, target =>
    p.Reachable ∧ (∀ msp, policyToMsp p ap = .ok msp → msp.nbCol ≤ w + 1) ∧
      (∀ gamma, target = some gamma → ¬ ap.Sat p fun b => ∃ v, p.HasValue b v ∧ v ∈ gamma) ∧ next.Legit w k ((p, ap) :: users) target
  | .challenge gamma next, k, users, target =>
    target = none ∧ (∀ u ∈ users, ¬ u.2.Sat u.1 fun b => ∃ v, u.1.HasValue b v ∧ v ∈ gamma) ∧ next.Legit w k users (some gamma)

end Abe
