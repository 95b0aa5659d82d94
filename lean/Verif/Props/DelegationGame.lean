import Verif.Spec.DelegationGame
import Verif.Props.Reduction

/-!
# Delegation between other users gives an attacker nothing

Property C81.
-/

set_option linter.unusedSectionVars false

namespace Abe

variable {K P Q QP T : Type} [Field K] [DecidableEq K] [AddCommGroup P] [Module K P] [AddCommGroup Q] [Module K Q]
  [AddCommGroup T] [Module K T]

/-! ### The attacker without the other users

Keys that the attacker does not obtain need not be made; a key that it does obtain is made at that moment, as a fresh key. -/

/-- Whether a key can be made from a master key with scalars for `size` values. -/
def makeable (size : Nat) (p : Policy) (ap : AccessPolicy) : Bool :=
  match policyToMsp p ap with
  | .ok m => m.rowToAttr.all fun a => decide (a.toNat < size)
  | _ => false

/-- A key of the game which has been made already, or not. -/
structure KeySlot (K QP Q : Type) where
  policy : Policy
  ap : AccessPolicy
  made : Option (Option (DecryptionKey K QP Q))

def freshSlot (K QP Q : Type) (size : Nat) (p : Policy) (ap : AccessPolicy) : KeySlot K QP Q := ⟨p, ap, if makeable size p ap then none else some none⟩

/-- The attacker of the game without delegation. -/
def Director.lower (size : Nat) : Director K P Q QP T → List (KeySlot K QP Q) → Attacker K P Q QP T
  | .guess g, _ => .guess g
  | .toss next, st => .toss fun x => (next x).lower size st
  | .choose n next, st => .choose n fun x => (next x).lower size st
  | .generate p ap next, st => next.lower size (st ++ [freshSlot K QP Q size p ap])
  | .delegate i ap' next, st =>
    match st[i]? with
    | some ⟨p, ap, some none⟩ => next.lower size (st ++ [⟨p, ap.child ap', some none⟩])
    | some ⟨p, ap, _⟩ => next.lower size (st ++ [freshSlot K QP Q size p (ap.child ap')])
    | none => next.lower size st
  | .obtain i next, st =>
    match st[i]? with
    | some ⟨p, ap, none⟩ => .key p ap fun k => (next k).lower size (st.set i ⟨p, ap, some k⟩)
    | some ⟨_, _, some k⟩ => (next k).lower size st
    | none => (next none).lower size st
  | .challenge m0 m1 next, st => .challenge m0 m1 fun x => (next x).lower size st

def KeySlot.owner (e : KeySlot K QP Q) : Policy × AccessPolicy := (e.policy, e.ap)

theorem freshSlot_owner (size : Nat) (p : Policy) (ap : AccessPolicy) : (freshSlot K QP Q size p ap).owner = (p, ap) := rfl

theorem Director.lower_fair {size : Nat} {gamma : List UInt32} : ∀ (A : Director K P Q QP T) (st : List (KeySlot K QP Q)), (∀ e ∈ st, e.policy.Reachable) →
    A.Fair gamma (st.map KeySlot.owner) → (A.lower size st).Fair gamma := by
  intro A
  have snoc : ∀ {st : List (KeySlot K QP Q)} {e : KeySlot K QP Q}, (∀ e ∈ st, e.policy.Reachable) → e.policy.Reachable → ∀ e' ∈ st ++ [e], e'.policy.Reachable := by
    intro st e h1 h2 e' he'
    rcases List.mem_append.1 he' with h | h
    · exact h1 _ h
    · rw [List.mem_singleton.1 h]; exact h2
  induction A with
  | guess b => intro st _ _; trivial
  | toss next ih => intro st hst h x; exact ih x st hst (h x)
  | choose n next ih => intro st hst h x; exact ih x st hst (h x)
  | generate p ap next ih =>
    intro st hst h
    refine ih _ (snoc hst h.1) ?_
    rw [List.map_append]; exact h.2
  | delegate i ap' next ih =>
    intro st hst h
    simp only [Director.Fair, List.getElem?_map] at h
    rcases hi : st[i]? with _ | ⟨p, ap, k⟩
    · rw [hi] at h
      simp only [Director.lower, hi]
      exact ih st hst h
    · have hp : p.Reachable := hst _ (List.mem_of_getElem? hi)
      rw [hi] at h
      simp only [Option.map_some, KeySlot.owner] at h
      rcases k with _ | _ | k
      · simp only [Director.lower, hi]
        exact ih _ (snoc hst hp) (by rw [List.map_append]; exact h.2)
      · simp only [Director.lower, hi]
        exact ih _ (snoc hst hp) (by rw [List.map_append]; exact h.2)
      · simp only [Director.lower, hi]
        exact ih _ (snoc hst hp) (by rw [List.map_append]; exact h.2)
  | obtain i next ih =>
    intro st hst h
    simp only [Director.Fair, List.getElem?_map] at h
    rcases hi : st[i]? with _ | ⟨p, ap, k⟩
    · simp only [Director.lower, hi]
      exact ih _ st hst (h.2 _)
    · have hp : p.Reachable := hst _ (List.mem_of_getElem? hi)
      rcases k with _ | k
      · simp only [Director.lower, hi]
        refine ⟨hp, h.1 (p, ap) (by rw [hi]; rfl), fun k => ih k _ ?_ ?_⟩
        · intro e he
          rcases List.mem_or_eq_of_mem_set he with he | rfl
          · exact hst e he
          · exact hp
        · have : (st.set i ⟨p, ap, some k⟩).map KeySlot.owner = st.map KeySlot.owner := by
            apply List.ext_getElem?
            intro j
            rw [List.getElem?_map, List.getElem?_map, List.getElem?_set]
            split
            · rename_i hij
              subst hij
              have hlt : i < st.length := (List.getElem?_eq_some_iff.1 hi).1
              rw [if_pos hlt, hi]; rfl
            · rfl
          rw [this]; exact h.2 k
      · simp only [Director.lower, hi]
        exact ih _ st hst (h.2 _)
  | challenge m0 m1 next ih => intro st hst h x; exact ih x st hst (h x)

/-! ### Making keys later -/

theorem bind_congr_support {α β : Type} {p : PMF α} {f g : α → PMF β} (h : ∀ a ∈ p.support, f a = g a) : p.bind f = p.bind g := by
  ext b
  rw [PMF.bind_apply, PMF.bind_apply]
  refine tsum_congr fun a => ?_
  by_cases ha : p a = 0
  · rw [ha, zero_mul, zero_mul]
  · rw [h a ((PMF.mem_support_iff p a).2 ha)]

/-- The key of a slot. -/
noncomputable def KeySlot.sample (keys : Policy → AccessPolicy → PMF (Option (DecryptionKey K QP Q))) : KeySlot K QP Q → PMF (Owned K QP Q)
  | ⟨p, ap, none⟩ => (keys p ap).map fun k => ⟨p, ap, k⟩
  | ⟨p, ap, some k⟩ => .pure ⟨p, ap, k⟩

/-- The keys of all slots. -/
noncomputable def sampleAll (keys : Policy → AccessPolicy → PMF (Option (DecryptionKey K QP Q))) : List (KeySlot K QP Q) → PMF (List (Owned K QP Q))
  | [] => .pure []
  | e :: st => (e.sample keys).bind fun o => (sampleAll keys st).map (o :: ·)

theorem sampleAll_snoc (keys : Policy → AccessPolicy → PMF (Option (DecryptionKey K QP Q))) (e : KeySlot K QP Q) : ∀ st : List (KeySlot K QP Q),
    sampleAll keys (st ++ [e]) = (sampleAll keys st).bind fun os => (e.sample keys).map fun o => os ++ [o] := by
  intro st
  induction st with
  | nil => simp only [List.nil_append, sampleAll, PMF.pure_map, PMF.pure_bind]; rfl
  | cons a st ih =>
    simp only [List.cons_append, sampleAll, ih, PMF.map_bind, PMF.bind_bind, PMF.bind_map]
    congr 1; funext o
    congr 1; funext os
    simp only [Function.comp, PMF.map_comp]
    rfl

theorem sampleAll_set (keys : Policy → AccessPolicy → PMF (Option (DecryptionKey K QP Q))) {p : Policy} {ap : AccessPolicy} :
    ∀ (st : List (KeySlot K QP Q)) (i : Nat), st[i]? = some ⟨p, ap, none⟩ →
      sampleAll keys st = (keys p ap).bind fun k => sampleAll keys (st.set i ⟨p, ap, some k⟩) := by
  intro st
  induction st with
  | nil => intro i h; simp at h
  | cons a st ih =>
    intro i h
    cases i with
    | zero =>
      simp only [List.getElem?_cons_zero, Option.some.injEq] at h
      subst h
      simp only [List.set_cons_zero, sampleAll, KeySlot.sample, PMF.bind_map, PMF.pure_bind]
      rfl
    | succ i =>
      simp only [List.getElem?_cons_succ] at h
      simp only [List.set_cons_succ, sampleAll]
      rw [ih i h]
      simp only [PMF.map_bind]
      rw [PMF.bind_comm]

theorem sampleAll_support {keys : Policy → AccessPolicy → PMF (Option (DecryptionKey K QP Q))} : ∀ {st : List (KeySlot K QP Q)} {os : List (Owned K QP Q)},
    os ∈ (sampleAll keys st).support → List.Forall₂ (fun e o => o ∈ (e.sample keys).support) st os := by
  intro st
  induction st with
  | nil =>
    intro os h
    rw [sampleAll, PMF.support_pure, Set.mem_singleton_iff] at h
    subst h; exact .nil
  | cons e st ih =>
    intro os h
    simp only [sampleAll, PMF.mem_support_bind_iff, PMF.support_map, Set.mem_image] at h
    obtain ⟨o, ho, os', hos', rfl⟩ := h
    exact .cons ho (ih hos')

theorem sampleAll_getElem? {keys : Policy → AccessPolicy → PMF (Option (DecryptionKey K QP Q))} {st : List (KeySlot K QP Q)} {os : List (Owned K QP Q)}
    (h : os ∈ (sampleAll keys st).support) (i : Nat) :
    (st[i]? = none ∧ os[i]? = none) ∨ ∃ e o, st[i]? = some e ∧ os[i]? = some o ∧ o ∈ (e.sample keys).support := by
  have h := sampleAll_support h
  rcases hi : st[i]? with _ | e
  · refine .inl ⟨rfl, ?_⟩
    rw [List.getElem?_eq_none_iff] at hi ⊢
    rw [← h.length_eq]; exact hi
  · obtain ⟨hlt, he⟩ := List.getElem?_eq_some_iff.1 hi
    have hlt' : i < os.length := h.length_eq ▸ hlt
    exact .inr ⟨e, os[i], rfl, List.getElem?_eq_getElem hlt', by rw [← he]; exact h.get hlt hlt'⟩

theorem sample_known {keys : Policy → AccessPolicy → PMF (Option (DecryptionKey K QP Q))} {p : Policy} {ap : AccessPolicy}
    {k : Option (DecryptionKey K QP Q)} {o : Owned K QP Q} (h : o ∈ ((⟨p, ap, some k⟩ : KeySlot K QP Q).sample keys).support) : o = ⟨p, ap, k⟩ := by
  rw [KeySlot.sample, PMF.support_pure, Set.mem_singleton_iff] at h
  exact h

theorem sample_hidden {keys : Policy → AccessPolicy → PMF (Option (DecryptionKey K QP Q))} {p : Policy} {ap : AccessPolicy}
    {o : Owned K QP Q} (h : o ∈ ((⟨p, ap, none⟩ : KeySlot K QP Q).sample keys).support) : ∃ k ∈ (keys p ap).support, o = ⟨p, ap, k⟩ := by
  rw [KeySlot.sample, PMF.support_map, Set.mem_image] at h
  obtain ⟨k, h1, h2⟩ := h
  exact ⟨k, h1, h2.symm⟩

/-- What the argument needs to know about the keys of the scheme. -/
structure Renewable (size : Nat) (keys : Policy → AccessPolicy → PMF (Option (DecryptionKey K QP Q)))
    (deleg : Policy → AccessPolicy → AccessPolicy → DecryptionKey K QP Q → PMF (Option (DecryptionKey K QP Q)))
    (Good : Policy → AccessPolicy → DecryptionKey K QP Q → Prop) : Prop where
  fails : ∀ {p ap}, p.Reachable → makeable size p ap = false → keys p ap = .pure none
  works : ∀ {p ap k}, p.Reachable → makeable size p ap = true → k ∈ (keys p ap).support → ∃ k', k = some k' ∧ Good p ap k'
  renews : ∀ {p ap ap' k}, p.Reachable → Good p ap k → (ap' = .all ∨ ap.Restricts p ap') → deleg p ap ap' k = keys p (ap.child ap')

/-- A slot that can arise. -/
structure KeySlot.Ok (size : Nat) (Good : Policy → AccessPolicy → DecryptionKey K QP Q → Prop) (e : KeySlot K QP Q) : Prop where
  reach : e.policy.Reachable
  hidden : e.made = none → makeable size e.policy e.ap = true
  known : ∀ k, e.made = some (some k) → Good e.policy e.ap k

theorem freshSlot_ok {size : Nat} {Good : Policy → AccessPolicy → DecryptionKey K QP Q → Prop} {p : Policy} (hp : p.Reachable) (ap : AccessPolicy) :
    (freshSlot K QP Q size p ap).Ok size Good := by
  refine ⟨hp, ?_, ?_⟩
  · unfold freshSlot; dsimp only
    split
    · intro _; assumption
    · intro h; simp at h
  · intro k
    unfold freshSlot; dsimp only
    split <;> intro h <;> simp at h

theorem freshSlot_sample {size : Nat} {keys : Policy → AccessPolicy → PMF (Option (DecryptionKey K QP Q))}
    {deleg : Policy → AccessPolicy → AccessPolicy → DecryptionKey K QP Q → PMF (Option (DecryptionKey K QP Q))}
    {Good : Policy → AccessPolicy → DecryptionKey K QP Q → Prop} (hR : Renewable size keys deleg Good) {p : Policy} (hp : p.Reachable) (ap : AccessPolicy) :
    (freshSlot K QP Q size p ap).sample keys = (keys p ap).map fun k => ⟨p, ap, k⟩ := by
  unfold freshSlot
  cases h : makeable size p ap
  · rw [hR.fails hp h, PMF.pure_map]; rfl
  · rfl

/-- The two games agree move by move. -/
theorem Director.lower_exec [Fintype K] {size : Nat} {keys : Policy → AccessPolicy → PMF (Option (DecryptionKey K QP Q))}
    {deleg : Policy → AccessPolicy → AccessPolicy → DecryptionKey K QP Q → PMF (Option (DecryptionKey K QP Q))}
    {Good : Policy → AccessPolicy → DecryptionKey K QP Q → Prop} (hR : Renewable size keys deleg Good) (chal : T → T → Option (CipherText P T))
    {gamma : List UInt32} : ∀ (A : Director K P Q QP T) (st : List (KeySlot K QP Q)) (used : Bool), (∀ e ∈ st, e.Ok size Good) →
    A.Fair gamma (st.map KeySlot.owner) →
    (A.lower size st).exec keys chal used = (sampleAll keys st).bind fun os => A.exec keys deleg chal os used := by
  intro A
  have snoc : ∀ {st : List (KeySlot K QP Q)} {e : KeySlot K QP Q}, (∀ e ∈ st, e.Ok size Good) → e.Ok size Good → ∀ e' ∈ st ++ [e], e'.Ok size Good := by
    intro st e h1 h2 e' he'
    rcases List.mem_append.1 he' with h | h
    · exact h1 _ h
    · rw [List.mem_singleton.1 h]; exact h2
  induction A with
  | guess b => intro st used _ _; simp only [Director.lower, Attacker.exec, Director.exec, PMF.bind_const]
  | toss next ih =>
    intro st used hst h
    simp only [Director.lower, Attacker.exec, Director.exec]
    rw [PMF.bind_comm]
    congr 1; funext x
    exact ih x st used hst (h x)
  | choose n next ih =>
    intro st used hst h
    simp only [Director.lower, Attacker.exec, Director.exec]
    rw [PMF.bind_comm]
    congr 1; funext x
    exact ih x st used hst (h x)
  | generate p ap next ih =>
    intro st used hst h
    simp only [Director.lower, Director.exec]
    rw [ih _ used (snoc hst (freshSlot_ok h.1 ap)) (by rw [List.map_append]; exact h.2), sampleAll_snoc, freshSlot_sample hR h.1, PMF.bind_bind]
    congr 1; funext os
    rw [PMF.bind_map, PMF.bind_map]
    rfl
  | delegate i ap' next ih =>
    intro st used hst h
    simp only [Director.Fair, List.getElem?_map] at h
    rcases hi : st[i]? with _ | ⟨p, ap, k⟩
    · rw [hi] at h
      simp only [Director.lower, hi]
      rw [ih st used hst h]
      refine bind_congr_support fun os hos => ?_
      rcases sampleAll_getElem? hos i with ⟨_, ho⟩ | ⟨e, o, he, _, _⟩
      · simp only [Director.exec, ho]
      · rw [hi] at he; cases he
    · have hok := hst _ (List.mem_of_getElem? hi)
      have hp : p.Reachable := hok.reach
      rw [hi] at h
      simp only [Option.map_some, KeySlot.owner] at h
      -- a key that exists is delegated as a fresh key is made
      have renew : (∀ o, o ∈ ((⟨p, ap, k⟩ : KeySlot K QP Q).sample keys).support → ∃ k', o = ⟨p, ap, some k'⟩ ∧ Good p ap k') →
          (next.lower size (st ++ [freshSlot K QP Q size p (ap.child ap')])).exec keys chal used =
            (sampleAll keys st).bind fun os => (Director.delegate i ap' next).exec keys deleg chal os used := by
        intro hgood
        rw [ih _ used (snoc hst (freshSlot_ok hp _)) (by rw [List.map_append]; exact h.2), sampleAll_snoc, freshSlot_sample hR hp, PMF.bind_bind]
        refine bind_congr_support fun os hos => ?_
        rcases sampleAll_getElem? hos i with ⟨he, _⟩ | ⟨e, o, he, ho, hs⟩
        · rw [hi] at he; cases he
        · rw [hi] at he
          simp only [Option.some.injEq] at he
          subst he
          obtain ⟨k', rfl, hk'⟩ := hgood o hs
          simp only [Director.exec, ho]
          rw [hR.renews hp hk' h.1, PMF.bind_map, PMF.bind_map]
          rfl
      rcases k with _ | _ | k
      · simp only [Director.lower, hi]
        refine renew fun o ho => ?_
        obtain ⟨k, hk, rfl⟩ := sample_hidden ho
        obtain ⟨k', rfl, hg⟩ := hR.works hp (hok.hidden rfl) hk
        exact ⟨k', rfl, hg⟩
      · simp only [Director.lower, hi]
        rw [ih _ used (snoc hst ⟨hp, fun h => by simp at h, fun k h => by simp at h⟩) (by rw [List.map_append]; exact h.2), sampleAll_snoc, PMF.bind_bind]
        refine bind_congr_support fun os hos => ?_
        rcases sampleAll_getElem? hos i with ⟨he, _⟩ | ⟨e, o, he, ho, hs⟩
        · rw [hi] at he; cases he
        · rw [hi] at he
          simp only [Option.some.injEq] at he
          subst he
          rw [sample_known hs] at ho
          simp only [Director.exec, ho, KeySlot.sample, PMF.pure_map, PMF.pure_bind]
      · simp only [Director.lower, hi]
        refine renew fun o ho => ?_
        exact ⟨k, sample_known ho, hok.known k rfl⟩
  | obtain i next ih =>
    intro st used hst h
    simp only [Director.Fair, List.getElem?_map] at h
    rcases hi : st[i]? with _ | ⟨p, ap, k⟩
    · simp only [Director.lower, hi]
      rw [ih _ st used hst (h.2 _)]
      refine bind_congr_support fun os hos => ?_
      rcases sampleAll_getElem? hos i with ⟨_, ho⟩ | ⟨e, o, he, _, _⟩
      · simp only [Director.exec, ho, Option.bind_none]
      · rw [hi] at he; cases he
    · have hok := hst _ (List.mem_of_getElem? hi)
      have hlt : i < st.length := (List.getElem?_eq_some_iff.1 hi).1
      rcases k with _ | k
      · simp only [Director.lower, hi, Attacker.exec]
        rw [sampleAll_set keys st i hi, PMF.bind_bind]
        refine bind_congr_support fun k hk => ?_
        have hset : (st.set i ⟨p, ap, some k⟩)[i]? = some ⟨p, ap, some k⟩ := by rw [List.getElem?_set_self hlt]
        rw [ih k _ used ?_ ?_]
        · refine bind_congr_support fun os hos => ?_
          rcases sampleAll_getElem? hos i with ⟨he, _⟩ | ⟨e, o, he, ho, hs⟩
          · rw [hset] at he; cases he
          · rw [hset] at he
            simp only [Option.some.injEq] at he
            subst he
            rw [sample_known hs] at ho
            simp only [Director.exec, ho, Option.bind_some]
        · intro e he
          rcases List.mem_or_eq_of_mem_set he with he | rfl
          · exact hst e he
          · obtain ⟨k', rfl, hg⟩ := hR.works hok.reach (hok.hidden rfl) hk
            refine ⟨hok.reach, fun h => by simp at h, fun k'' h => ?_⟩
            simp only [Option.some.injEq] at h
            subst h; exact hg
        · have : (st.set i ⟨p, ap, some k⟩).map KeySlot.owner = st.map KeySlot.owner := by
            apply List.ext_getElem?
            intro j
            rw [List.getElem?_map, List.getElem?_map, List.getElem?_set]
            split
            · rename_i hij
              subst hij
              rw [hi]; rfl
            · rfl
          rw [this]; exact h.2 k
      · simp only [Director.lower, hi]
        rw [ih _ st used hst (h.2 _)]
        refine bind_congr_support fun os hos => ?_
        rcases sampleAll_getElem? hos i with ⟨he, _⟩ | ⟨e, o, he, ho, hs⟩
        · rw [hi] at he; cases he
        · rw [hi] at he
          simp only [Option.some.injEq] at he
          subst he
          rw [sample_known hs] at ho
          simp only [Director.exec, ho, Option.bind_some]
  | challenge m0 m1 next ih =>
    intro st used hst h
    simp only [Director.lower, Attacker.exec, Director.exec]
    split
    · exact ih _ st true hst (h _)
    · exact ih _ st true hst (h _)

/-! ### The keys of the scheme -/

theorem child_all (ap : AccessPolicy) : ap.child .all = ap := rfl

theorem child_ne {ap ap' : AccessPolicy} (h : ap' ≠ .all) : ap.child ap' = ap' := by
  cases ap' with
  | all => exact absurd rfl h
  | _ => rfl

/-- A shift of the draws does not change the distribution of keys. -/
theorem userKeys_shift [Fintype K] (c : Curve K P Q QP T) (priv : MasterPrivateKey K) (p : Policy) (ap : AccessPolicy)
    {f : (Nat → K) → Out (DecryptionKey K QP Q)} {w : Nat → K} (hf : ∀ r, f r = engineGenerateUserKey (bls c) p priv ap fun i => r i + w i) :
    ((PMF.uniformOfFintype (Fin (keyDraws p ap) → K)).map fun r => (f (pad r)).toOption) = userKeys c priv p ap := by
  unfold userKeys
  rw [← PMF.bind_pure_comp, ← PMF.bind_pure_comp]
  conv_rhs => rw [← uniform_bind_equiv (Equiv.addRight fun i : Fin (keyDraws p ap) => w i)]
  congr 1; funext r
  simp only [Function.comp, hf]
  congr 2
  refine engineGenerate_congr c priv p ap fun i hi => ?_
  rw [pad_lt _ hi, pad_lt _ hi]
  rfl

theorem scheme_renewable [Fintype K] (c : Curve K P Q QP T) {tI : List K} (hnz : ∀ t ∈ tI, t ≠ 0) (y : K) :
    Renewable tI.length (userKeys c ⟨tI, y⟩) (delegatedKeys c (delOf c tI)) fun p ap k => ∃ F msp lam, KeyOk c p tI y ap F msp lam k := by
  refine ⟨?_, ?_, ?_⟩
  · intro p ap hp hm
    have hw := reachable_wf hp
    have : ∀ r : Nat → K, (engineGenerateUserKey (bls c) p ⟨tI, y⟩ ap r).toOption = none := by
      intro r
      cases hg : engineGenerateUserKey (bls c) p ⟨tI, y⟩ ap r with
      | err e => rfl
      | panic => rfl
      | ok key =>
        exfalso
        obtain ⟨F, msp, lam, hk⟩ := userKey_gen c hw hnz hg
        simp only [makeable, hk.compiled, List.all_eq_false, decide_eq_true_eq] at hm
        obtain ⟨a, ha, hlt⟩ := hm
        exact hlt (hk.covers a (hk.mspFor.perm.mem_iff.1 ha)).1
    unfold userKeys
    simp only [this]
    exact PMF.map_const ..
  · intro p ap k hp hm hk
    have hw := reachable_wf hp
    simp only [userKeys, PMF.support_map, Set.mem_image] at hk
    obtain ⟨r, _, rfl⟩ := hk
    rcases policyToMsp_spec hw ap with ⟨_, m, F, h1, h2, h3⟩ | ⟨_, e, h1⟩
    · simp only [makeable, h1, List.all_eq_true, decide_eq_true_eq] at hm
      rcases keyGeneration_cases c h2 tI y (pad r) hnz with ⟨_, key, hg⟩ | ⟨⟨a, ha, hle⟩, _⟩
      · have hgen : engineGenerateUserKey (bls c) p ⟨tI, y⟩ ap (pad r) = .ok key := by
          unfold engineGenerateUserKey
          rw [h1, Res.ok_bind]; exact hg
        exact ⟨key, by rw [hgen]; rfl, userKey_gen c hw hnz hgen⟩
      · exact absurd (hm a (h2.perm.mem_iff.2 ha)) (by omega)
    · simp [makeable, h1] at hm
  · rintro p ap ap' k hp ⟨F, msp, lam, hk⟩ hr
    have hw := reachable_wf hp
    unfold delegatedKeys
    by_cases hall : ap' = .all
    · subst hall
      obtain ⟨w, hw'⟩ := randomised_shift c hk p
      exact userKeys_shift c ⟨tI, y⟩ p ap hw'
    · have hr := hr.resolve_left hall
      have hch := child_ne (ap := ap) hall
      by_cases hv : ap'.Valid p
      · obtain ⟨w, hw'⟩ := delegated_shift c hw hk hr hall hv
        exact userKeys_shift c ⟨tI, y⟩ p (ap.child ap') fun r => by rw [hch]; exact hw' r
      · rcases policyToMsp_spec hw ap' with ⟨hv', _⟩ | ⟨_, e, h1⟩
        · exact absurd hv' hv
        · have hd : ∀ r : Nat → K, (engineDelegateUserKey (bls c) p (delOf c tI) k ap' r).toOption = none := by
            intro r
            cases ap' with
            | all => exact absurd rfl hall
            | attr a => unfold engineDelegateUserKey; simp only [h1, Res.err_bind]; rfl
            | and l r => unfold engineDelegateUserKey; simp only [h1, Res.err_bind]; rfl
            | or l r => unfold engineDelegateUserKey; simp only [h1, Res.err_bind]; rfl
          have hg : ∀ r : Nat → K, (engineGenerateUserKey (bls c) p ⟨tI, y⟩ (ap.child ap') r).toOption = none := by
            intro r
            rw [hch]
            unfold engineGenerateUserKey
            rw [h1, Res.err_bind]; rfl
          unfold userKeys
          simp only [hd, hg]

/-- The attacker of the game without delegation: it runs the given one, asks for fresh keys in place of delegated ones, and for no key that it is not given. -/
def withoutDelegation (size : Nat) (A : MasterPublicKey P T → DelegationKey Q → Director K P Q QP T) (pk : MasterPublicKey P T) (dk : DelegationKey Q) :
    Attacker K P Q QP T := (A pk dk).lower size []

/-- **C81.** The game with delegation is the game without, for the attacker which leaves the other users out, and keeps to the rules of that game. -/
theorem C81_delegation_adds_nothing [Fintype K] (c : Curve K P Q QP T) (t : Target) (size : Nat) (gamma : List UInt32)
    (A : MasterPublicKey P T → DelegationKey Q → Director K P Q QP T) (hA : ∀ pk dk, (A pk dk).Fair gamma []) :
    (∀ pk dk, (withoutDelegation size A pk dk).Fair gamma) ∧ delegationGame c t size gamma A = selectiveGame c t size gamma (withoutDelegation size A) := by
  refine ⟨fun pk dk => (A pk dk).lower_fair [] (by simp) (hA pk dk), ?_⟩
  unfold delegationGame selectiveGame
  congr 1; funext s; congr 1; funext y; congr 1; funext b; congr 1; funext rnd
  unfold delegationRun selectiveRun
  cases hmk : generateMasterKey (bls c) size (pad rnd) y with
  | err e => rfl
  | panic => rfl
  | ok mk =>
    obtain ⟨tI, rfl, hnz, rfl⟩ := generateMasterKey_inv c hmk
    dsimp only
    congr 1
    rw [withoutDelegation, Director.lower_exec (scheme_renewable c hnz y) _ _ [] false (by simp) (hA _ _), sampleAll, PMF.pure_bind]

/-- **C81.** The advantage in the game with delegation is at most the advantage of the reduction, for that attacker, in telling products from random elements. -/
theorem C81_delegation_secure [Fintype K] (c : Curve K P Q QP T) (hT : ∀ m : T, ∃ x : K, m = x • c.genT) (t : Target) (size : Nat) (gamma : List UInt32)
    (A : MasterPublicKey P T → DelegationKey Q → Director K P Q QP T) (hA : ∀ pk dk, (A pk dk).Fair gamma []) :
    |prob (delegationGame c t size gamma A) - 1 / 2| ≤ |prob ((bdhReal c).bind (distinguisher c size gamma (withoutDelegation size A))) -
      prob ((bdhRandom c).bind (distinguisher c size gamma (withoutDelegation size A)))| := by
  obtain ⟨h1, h2⟩ := C81_delegation_adds_nothing c t size gamma A hA
  rw [h2]
  exact (C80_selective_security c hT t size gamma _ h1).2

namespace Demo

/-- The challenge is for `Low` and `HR`.  A user has a key for `High && (HR || MKG)`, which opens it, and delegates it to `High && MKG`; the attacker obtains a
randomised copy of that. -/
def friend (look : MasterPublicKey F F → DelegationKey F → Option (CipherText F F) → Option (DecryptionKey F F F) → F → Bool)
    (pk : MasterPublicKey F F) (dk : DelegationKey F) : Director F F F F F :=
  .generate policy ap <| .challenge 3 5 fun ct => .delegate 0 (.and (.attr high) (.attr mkg)) <| .delegate 1 .all <| .obtain 2 fun k =>
    .toss fun x => .guess (look pk dk ct k x)

theorem mkg_unauthorised : ¬ (AccessPolicy.attr mkg).Sat policy fun b => ∃ v, policy.HasValue b v ∧ v ∈ [(1 : UInt32), 4] := by
  rintro ⟨b, h1, v, h2, h4⟩
  have hcase : v = 1 ∨ v = 4 := by simpa using h4
  rcases hcase with rfl | rfl
  · have hb : b = low := h2.inj (reachable_wf policy_reachable) ⟨[1], by decide +kernel, by simp⟩
    subst hb
    obtain ⟨_, _, _, _, _, h, _⟩ := h1
    exact absurd h (by decide +kernel)
  · have hb : b = hr := h2.inj (reachable_wf policy_reachable) ⟨[4], by decide +kernel, by simp⟩
    subst hb
    obtain ⟨_, _, h, hax, _, _, hn⟩ := h1
    rw [show hget policy.axes mkg.axis = some (["RnD", "HR", "MKG"], false) by decide +kernel, Option.some.injEq, Prod.mk.injEq] at hax
    rcases hn with hn | hn
    · exact absurd hn (by decide +kernel)
    · rw [← hax.2] at hn
      simp at hn

theorem friend_fair (look) (pk dk) : (friend look pk dk).Fair [1, 4] [] := by
  refine ⟨policy_reachable, fun _ => ⟨.inr (.and (.refl _) (.orRight (.refl _))), .inl rfl, ?_, fun _ _ => trivial⟩⟩
  rintro o ho hs
  simp only [List.nil_append, List.cons_append, AccessPolicy.child, List.getElem?_cons_succ, List.getElem?_cons_zero, Option.some.injEq] at ho
  subst ho
  exact mkg_unauthorised hs.2

/-- **C81** for this attacker, whatever it computes.  The user's own key opens the challenge (`ap_authorised`). -/
example (look) : |prob (delegationGame curveF .release64 20 [1, 4] (friend look)) - 1 / 2| ≤
    |prob ((bdhReal curveF).bind (distinguisher curveF 20 [1, 4] (withoutDelegation 20 (friend look)))) -
      prob ((bdhRandom curveF).bind (distinguisher curveF 20 [1, 4] (withoutDelegation 20 (friend look))))| :=
  C81_delegation_secure curveF (fun m => ⟨m, by simp [curveF]⟩) .release64 20 [1, 4] (friend look) (friend_fair look)

end Demo

end Abe
