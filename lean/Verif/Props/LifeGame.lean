import Verif.Spec.LifeGame
import Verif.Props.ManyGame
import Verif.Props.History

set_option linter.unusedSectionVars false

/-!
# Security over the life of a policy

The selective game of the engine, for keys and a challenge made under the policies of different moments.
-/

namespace Abe

variable {K P Q QP T : Type} [Field K] [DecidableEq K] [AddCommGroup P] [Module K P] [AddCommGroup Q] [Module K Q]
  [AddCommGroup T] [Module K T]

theorem Attacker.asks_fair {allowed : Policy → AccessPolicy → Prop} {gamma : List UInt32}
    (h : ∀ q ap, allowed q ap → q.Reachable ∧ ¬ ap.Sat q fun b => ∃ v, q.HasValue b v ∧ v ∈ gamma) :
    ∀ A : Attacker K P Q QP T, A.Asks allowed → A.Fair gamma := by
  intro A
  induction A with
  | guess g => intro _; trivial
  | toss next ih => exact fun hA x => ih x (hA x)
  | choose n next ih => exact fun hA x => ih x (hA x)
  | key p ap next ih => exact fun hA => ⟨(h p ap hA.1).1, (h p ap hA.1).2, fun k => ih k (hA.2 k)⟩
  | challenge m0 m1 next ih => exact fun hA x => ih x (hA x)

theorem Attacker.asks_mono {allowed allowed' : Policy → AccessPolicy → Prop} (h : ∀ q ap, allowed q ap → allowed' q ap) :
    ∀ A : Attacker K P Q QP T, A.Asks allowed → A.Asks allowed' := by
  intro A
  induction A with
  | guess g => intro _; trivial
  | toss next ih => exact fun hA x => ih x (hA x)
  | choose n next ih => exact fun hA x => ih x (hA x)
  | key p ap next ih => exact fun hA => ⟨h p ap hA.1, fun k => ih k (hA.2 k)⟩
  | challenge m0 m1 next ih => exact fun hA x => ih x (hA x)

/-- Keys that do not open the ciphertext, in terms of attributes, are unauthorised in terms of values. -/
theorem shut_unauthorised {p : Policy} (hp : p.Reachable) {attrs : List Attribute} {gamma : List UInt32} (hg : p.attributesValues attrs = .ok gamma)
    {q : Policy} {ap : AccessPolicy} (h : Shut p attrs q ap) : q.Reachable ∧ ¬ ap.Sat q fun b => ∃ v, q.HasValue b v ∧ v ∈ gamma := by
  have hw := reachable_wf hp
  rcases attributesValues_cases hw attrs with ⟨hk, vs, h2, _, hvs, _⟩ | ⟨_, h2⟩
  · rw [hg, Res.ok.injEq] at h2
    subst h2
    rcases h with ⟨l, hq, he, hn⟩ | ⟨l, he, hn⟩
    · have hwq := reachable_wf hq
      exact ⟨hq, fun hs => hn ((AccessPolicy.sat_congr (fun b hb => (evolves_later he hwq).hasValue_later hwq hvs hb) ap).1 hs)⟩
    · exact ⟨evolves_reachable he hp, fun hs => hn ((AccessPolicy.sat_congr (fun b _ => (evolves_later he hw).hasValue_earlier hw hvs hk) ap).1 hs)⟩
  · rw [hg] at h2
    simp at h2

/-- The attribute values of the challenge, if there are any. -/
def challengeValues (p : Policy) (attrs : List Attribute) : List UInt32 := (p.attributesValues attrs).toOption.getD []

/-- A challenge that fails does not help. -/
theorem Attacker.exec_blind [Fintype K] (keys : Policy → AccessPolicy → PMF (Option (DecryptionKey K QP Q))) (A : Attacker K P Q QP T) :
    ((PMF.uniformOfFintype Bool).bind fun b => (A.exec keys (fun _ _ => none) false).map (· == b)) = PMF.uniformOfFintype Bool := coin_guess _

/-- **C85.** Security over the life of a policy: the attacker may have any keys that do not open the challenge, made by the engine before or after it; its advantage is
at most that of the reduction in telling products from random elements. -/
theorem C85_life_security [Fintype K] (c : Curve K P Q QP T) (hT : ∀ m : T, ∃ x : K, m = x • c.genT) (t : Target) (p0 : Policy) {p : Policy} (hp : p.Reachable)
    (attrs : List Attribute) (A : MasterPublicKey P T → DelegationKey Q → Attacker K P Q QP T) (hA : ∀ pk dk, (A pk dk).Asks (Shut p attrs)) :
    |prob (lifeGame c t p0 p attrs A) - 1 / 2| ≤
      |prob ((bdhReal c).bind (distinguisher c p0.maxAttributeCreations.toNat (challengeValues p attrs) A)) -
        prob ((bdhRandom c).bind (distinguisher c p0.maxAttributeCreations.toNat (challengeValues p attrs) A))| := by
  rcases attributesValues_cases (reachable_wf hp) attrs with ⟨_, gamma, hg, _⟩ | ⟨_, hg⟩
  · have hgame : lifeGame c t p0 p attrs A = selectiveGame c t p0.maxAttributeCreations.toNat gamma A := by
      unfold lifeGame selectiveGame lifeRun selectiveRun engineGenerateMasterKey engineEncrypt
      simp only [hg, Res.ok_bind]
      rfl
    have hv : challengeValues p attrs = gamma := by simp [challengeValues, hg, Res.toOption]
    rw [hgame, hv]
    exact (C80_selective_security c hT t _ gamma A fun pk dk => (A pk dk).asks_fair (fun q ap h => shut_unauthorised hp hg h) (hA pk dk)).2
  · have hgame : lifeGame c t p0 p attrs A = PMF.uniformOfFintype Bool := by
      unfold lifeGame
      refine bind_const' fun s => bind_const' fun y => ?_
      rw [PMF.bind_comm]
      refine bind_const' fun rnd => ?_
      unfold lifeRun engineEncrypt
      simp only [hg]
      cases engineGenerateMasterKey (bls c) p0 (pad rnd) y with
      | ok mk => exact Attacker.exec_blind _ _
      | err e => exact bind_const' fun _ => rfl
      | panic => exact bind_const' fun _ => rfl
    have hcoin : prob (PMF.uniformOfFintype Bool) = 1 / 2 := by simp [prob]
    rw [hgame, hcoin, sub_self, abs_zero]
    exact abs_nonneg _

theorem AccessPolicy.sat_witness {p : Policy} {S : Attribute → Prop} : ∀ {ap : AccessPolicy}, ap.Sat p S → ∃ b, S b
  | .attr _, ⟨b, _, h⟩ => ⟨b, h⟩
  | .and _ _, ⟨h, _⟩ => AccessPolicy.sat_witness h
  | .or _ _, .inl h => AccessPolicy.sat_witness h
  | .or _ _, .inr h => AccessPolicy.sat_witness h
  | .all, ⟨b, _, h⟩ => ⟨b, h⟩

/-- **C85.** Rotation revokes against all attackers: when all attributes of the challenge were rotated since, the attacker may have any keys whatsoever made before
the rotation, for any access policies. -/
theorem C85_revoked_keys [Fintype K] (c : Curve K P Q QP T) (hT : ∀ m : T, ∃ x : K, m = x • c.genT) (t : Target) (p0 : Policy) {p : Policy} (hp : p.Reachable)
    (attrs : List Attribute) (A : MasterPublicKey P T → DelegationKey Q → Attacker K P Q QP T)
    (hA : ∀ pk dk, (A pk dk).Asks fun q ap => (∃ l, q.Reachable ∧ q.Evolves l p ∧ ∀ a ∈ attrs, Rotated l a) ∨ Shut p attrs q ap) :
    |prob (lifeGame c t p0 p attrs A) - 1 / 2| ≤
      |prob ((bdhReal c).bind (distinguisher c p0.maxAttributeCreations.toNat (challengeValues p attrs) A)) -
        prob ((bdhRandom c).bind (distinguisher c p0.maxAttributeCreations.toNat (challengeValues p attrs) A))| := by
  refine C85_life_security c hT t p0 hp attrs A fun pk dk => (A pk dk).asks_mono ?_ (hA pk dk)
  rintro q ap (⟨l, hq, he, hr⟩ | h)
  · exact .inl ⟨l, hq, he, fun hs => by obtain ⟨b, hb, hn⟩ := AccessPolicy.sat_witness hs; exact hn (hr b hb)⟩
  · exact h

namespace Demo

/-- A former employee with the key for all attributes and one for `High && (HR || MKG)`, made before `HR` was rotated and an axis was added, who also has a new key
for `MKG`. -/
def former (look : MasterPublicKey F F → DelegationKey F → Option (DecryptionKey F F F) → Option (DecryptionKey F F F) → Option (CipherText F F) →
    Option (DecryptionKey F F F) → Bool) (pk : MasterPublicKey F F) (dk : DelegationKey F) : Attacker F F F F F :=
  .key policy .all fun k => .key policy ap fun k' => .challenge 3 5 fun ct => .key grown (.attr mkg) fun k'' => .guess (look pk dk k k' ct k'')

theorem former_asks (look) (pk dk) : (former look pk dk).Asks fun q ap =>
    (∃ l, q.Reachable ∧ q.Evolves l grown ∧ ∀ a ∈ [hr], Rotated l a) ∨ Shut grown [hr] q ap := by
  have hrot : ∀ a ∈ [hr], Rotated changes a := by
    intro a ha
    rw [List.mem_singleton.1 ha]
    simp [Rotated, changes]
  refine ⟨.inl ⟨_, policy_reachable, evolves, hrot⟩, fun _ => ⟨.inl ⟨_, policy_reachable, evolves, hrot⟩, fun _ _ => ⟨.inr (.inr ⟨[], .nil _, ?_⟩), fun _ => trivial⟩⟩⟩
  rintro ⟨b, ⟨below, above, h, hax, _, _, hn⟩, hb⟩
  rw [List.mem_singleton.1 hb] at hn
  rw [show hget grown.axes mkg.axis = some (["RnD", "HR", "MKG"], false) by decide +kernel, Option.some.injEq, Prod.mk.injEq] at hax
  rcases hn with hn | hn
  · exact absurd hn (by decide)
  · rw [← hax.2] at hn
    exact absurd hn.1 (by decide)

/-- **C85** for them, whatever they compute. -/
example (look) : |prob (lifeGame curveF .release64 policy grown [hr] (former look)) - 1 / 2| ≤
    |prob ((bdhReal curveF).bind (distinguisher curveF 8 [6] (former look))) - prob ((bdhRandom curveF).bind (distinguisher curveF 8 [6] (former look)))| := by
  have h := C85_revoked_keys curveF (fun m => ⟨m, by simp [curveF]⟩) .release64 policy grown_reachable [hr] (former look) (former_asks look)
  rwa [show challengeValues grown [hr] = [6] by decide +kernel, show policy.maxAttributeCreations.toNat = 8 by decide +kernel] at h

end Demo

end Abe
