import Verif.Proofs.Reorder
import Verif.Props.History

/-!
# The order of hash maps

Property C75.  The axes and attributes of a policy are kept in hash maps, whose order differs between runs and changes when a policy is written to JSON
and read back.  What the library computes does not depend on it.
-/

namespace Abe

set_option linter.unusedSectionVars false

variable {K P Q QP T : Type} [Field K] [DecidableEq K] [AddCommGroup P] [Module K P] [AddCommGroup Q] [Module K Q]
  [AddCommGroup T] [Module K T]

/-- **C75**, histories of a policy: the same changes are accepted whatever the order, and the resulting policies differ in the order of their hash maps
only, however often the hash maps are reordered on the way. -/
theorem C75_policy_changes {p p' : Policy} (hp : p.Reachable) (h : p.Reorders p') {l : List Change} :
    (∀ q, p.Evolves l q → ∃ q', p'.Evolves l q') ∧ (∀ q q', p.Evolves l q → p'.Evolves l q' → q.Reorders q') :=
  ⟨fun _ he => (evolves_reorders he (reachable_wf hp) h).imp fun _ h => h.1, fun _ _ he he' => evolves_confluent he (reachable_wf hp) h he'⟩

/-- **C75**, the engine: master keys, user keys of access policies other than `All`, delegated and randomised keys and ciphertexts are the same for the
same randomness, errors and panics included.  For `All`, whose key has its rows in the order of the hash map, a key is made in the same cases. -/
theorem C75_engine (c : Curve K P Q QP T) {p p' : Policy} (hp : p.Reachable) (h : p.Reorders p') :
    (∀ rnd y, engineGenerateMasterKey (bls c) p' rnd y = engineGenerateMasterKey (bls c) p rnd y) ∧
    (∀ priv ap rnd, ap ≠ .all → engineGenerateUserKey (bls c) p' priv ap rnd = engineGenerateUserKey (bls c) p priv ap rnd) ∧
    (∀ (priv : MasterPrivateKey K) rnd rnd', (∀ t ∈ priv.tI, t ≠ 0) →
      ((∃ key, engineGenerateUserKey (bls c) p' priv .all rnd' = .ok key) ↔ ∃ key, engineGenerateUserKey (bls c) p priv .all rnd = .ok key)) ∧
    (∀ del key ap rnd, engineDelegateUserKey (bls c) p' del key ap rnd = engineDelegateUserKey (bls c) p del key ap rnd) ∧
    (∀ t pub atts (msg : T) s, engineEncrypt (bls c) t p' pub atts msg s = engineEncrypt (bls c) t p pub atts msg s) := by
  have hw := reachable_wf hp
  refine ⟨fun rnd y => ?_, fun priv ap rnd hne => ?_, fun priv rnd rnd' hnz => ?_, fun del key ap rnd => ?_, fun t pub atts msg s => ?_⟩
  · unfold engineGenerateMasterKey; rw [h.max]
  · unfold engineGenerateUserKey; rw [h.policyToMsp hw hne]
  · obtain ⟨tI, y⟩ := priv
    obtain ⟨a1, a2⟩ := C07_key_generation_success c hw hnz y .all rnd
    obtain ⟨b1, b2⟩ := C07_key_generation_success c (h.wf hw) hnz y .all rnd'
    have e : (AccessPolicy.all.Valid p' ∧ ∀ b v, AccessPolicy.all.Grants p' b → p'.HasValue b v → v.toNat < tI.length) ↔
        (AccessPolicy.all.Valid p ∧ ∀ b v, AccessPolicy.all.Grants p b → p.HasValue b v → v.toNat < tI.length) := by
      simp only [AccessPolicy.Valid, AccessPolicy.Grants, h.known hw, Policy.HasValue, h.hget_values hw]
    rw [e] at b1 b2
    by_cases hv : AccessPolicy.all.Valid p ∧ ∀ b v, AccessPolicy.all.Grants p b → p.HasValue b v → v.toNat < tI.length
    · exact ⟨fun _ => a1 hv, fun _ => b1 hv⟩
    · obtain ⟨e1, h1⟩ := a2 hv
      obtain ⟨e2, h2⟩ := b2 hv
      rw [h1, h2]
      simp
  · unfold engineDelegateUserKey
    cases ap with
    | all => rfl
    | attr a => simp only [h.policyToMsp hw (ap := .attr a) (by simp)]
    | and l r => simp only [h.policyToMsp hw (ap := .and l r) (by simp)]
    | or l r => simp only [h.policyToMsp hw (ap := .or l r) (by simp)]
  · unfold engineEncrypt; rw [h.attributesValues hw]

/-- **C75**, decryption: two keys for the same access policy, issued under policies that differ in the order of their hash maps, with any randomness and
through any randomisations and delegations, open the same ciphertexts, with the same messages and errors. -/
theorem C75_keys_agree (c : Curve K P Q QP T) {size : Nat} {rnd : Nat → K} {y : K} {mk : MasterKey K P Q T}
    (hmk : generateMasterKey (bls c) size rnd y = .ok mk) {p p' : Policy} (hp : p.Reachable) (h : p.Reorders p') {ap : AccessPolicy}
    {key key' : DecryptionKey K QP Q} (hk : Issued c mk p ap key) (hk' : Issued c mk p' ap key') {l : List Change} {q : Policy}
    (he : p.Evolves l q ∨ q.Reachable ∧ q.Evolves l p) {t : Target} {atts : List Attribute} {msg : T} {s : K} {enc : CipherText P T}
    (henc : engineEncrypt (bls c) t q mk.pubKey atts msg s = .ok enc) :
    engineDecrypt (bls c) enc key' = engineDecrypt (bls c) enc key := by
  have hw := reachable_wf hp
  have hsat : ∀ (S : Attribute → Prop) (ap : AccessPolicy), ap.Sat p' S ↔ ap.Sat p S := by
    intro S ap
    induction ap with
    | attr a => simp only [AccessPolicy.Sat, h.covers hw]
    | and l r hl hr => exact and_congr hl hr
    | or l r hl hr => exact or_congr hl hr
    | all => simp only [AccessPolicy.Sat, h.known hw]
  have hgr : ∀ (b : Attribute) (ap : AccessPolicy), ap.Grants p' b ↔ ap.Grants p b := by
    intro b ap
    induction ap with
    | attr a => exact h.covers hw a b
    | and l r hl hr => exact or_congr hl hr
    | or l r hl hr => exact or_congr hl hr
    | all => exact h.known hw b
  rcases he with he | ⟨hq, he⟩
  · obtain ⟨a1, a2⟩ := C71_later_ciphertext c hmk hk he henc
    obtain ⟨b1, b2⟩ := C71_later_ciphertext c hmk hk' (.reorder h.symm he) henc
    simp only [hsat, hgr] at b1 b2
    by_cases hs : ap.Sat p fun b => b ∈ atts ∧ ¬ Rotated l b
    · rw [a1 hs, b1 hs]
    · by_cases hg : ∃ b ∈ atts, ¬ Rotated l b ∧ ap.Grants p b
      · rw [(a2 hs).1 hg, (b2 hs).1 hg]
      · have hg' : ∀ b ∈ atts, ¬ Rotated l b → ¬ ap.Grants p b := fun b hb hr hg' => hg ⟨b, hb, hr, hg'⟩
        rw [(a2 hs).2 hg', (b2 hs).2 hg']
  · have he' : q.Evolves l p' := by
      clear henc hk hk' hw hsat hgr hp
      induction he with
      | nil p => exact .reorder h (.nil _)
      | cons hc _ ih => exact .cons hc (ih h (evolves_reachable (.cons hc (.nil _)) hq))
      | reorder hr _ ih => exact .reorder hr (ih h (hq.reorder hr))
    obtain ⟨a1, a2⟩ := C71_earlier_ciphertext c hmk hk hq he henc
    obtain ⟨b1, b2⟩ := C71_earlier_ciphertext c hmk hk' hq he' henc
    simp only [hsat, hgr] at b1 b2
    by_cases hs : ap.Sat p (· ∈ atts)
    · rw [a1 hs, b1 hs]
    · by_cases hg : ∃ b ∈ atts, ap.Grants p b
      · rw [(a2 hs).1 hg, (b2 hs).1 hg]
      · have hg' : ∀ b ∈ atts, ¬ ap.Grants p b := fun b hb hg' => hg ⟨b, hb, hg'⟩
        rw [(a2 hs).2 hg', (b2 hs).2 hg']

namespace Demo

/-- The demo policy read from JSON with other hash seeds. -/
def shuffled : Policy :=
  ⟨5, 8, [("Lvl", (["Low", "High"], true)), ("Dpt", (["RnD", "HR", "MKG"], false))],
    [(⟨"Dpt", "HR"⟩, [4]), (⟨"Lvl", "High"⟩, [2]), (⟨"Dpt", "MKG"⟩, [5]), (⟨"Lvl", "Low"⟩, [1]), (⟨"Dpt", "RnD"⟩, [3])]⟩

theorem reorders : policy.Reorders shuffled := ⟨by decide +kernel, by decide +kernel, by decide +kernel, by decide +kernel⟩

/-- The orders differ, and so do the keys for `All`; the changes of `Demo.changes` lead to policies that are equal up to order. -/
example : shuffled ≠ policy ∧ (∃ q', shuffled.Evolves changes q' ∧ grown.Reorders q') ∧
    policyToMsp shuffled .all ≠ policyToMsp policy .all := by
  obtain ⟨h1, h2⟩ := C75_policy_changes policy_reachable reorders (l := changes)
  obtain ⟨q', hq⟩ := h1 _ evolves
  exact ⟨by decide +kernel, ⟨q', hq, h2 _ _ evolves hq⟩, by decide +kernel⟩

example : engineGenerateUserKey (bls curve) shuffled mk.privKey ap draws = engineGenerateUserKey (bls curve) policy mk.privKey ap draws :=
  (C75_engine curve policy_reachable reorders).2.1 _ _ _ (by simp [ap])

/-- Two `All` keys, made under the two orders, on a ciphertext made later. -/
example : ∃ key key' enc, Issued curve mk policy .all key ∧ Issued curve mk shuffled .all key' ∧
    engineEncrypt (bls curve) .debug64 grown mk.pubKey [low, hr] 5 11 = .ok enc ∧
    engineDecrypt (bls curve) enc key' = engineDecrypt (bls curve) enc key := by
  obtain ⟨key, hkey⟩ : ∃ key, engineGenerateUserKey (bls curve) policy mk.privKey .all draws = .ok key := exists_of_isOk (by decide +kernel)
  obtain ⟨key', hkey'⟩ : ∃ key, engineGenerateUserKey (bls curve) shuffled mk.privKey .all draws = .ok key := exists_of_isOk (by decide +kernel)
  obtain ⟨enc, henc⟩ : ∃ enc, engineEncrypt (bls curve) .debug64 grown mk.pubKey [low, hr] 5 11 = .ok enc := exists_of_isOk (by decide +kernel)
  have hk : Issued curve mk policy .all key := .generate _ policy_reachable hkey
  have hk' : Issued curve mk shuffled .all key' := .generate _ (policy_reachable.reorder reorders) hkey'
  exact ⟨key, key', enc, hk, hk', henc, C75_keys_agree curve mk_eq' policy_reachable reorders hk hk' (.inl evolves) henc⟩

end Demo

end Abe
