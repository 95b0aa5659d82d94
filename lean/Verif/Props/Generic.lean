import Verif.Proofs.Generic
import Verif.Props.Access
import Verif.Props.DemoBytes
import Mathlib.Tactic.Positivity
import Mathlib.Algebra.Order.BigOperators.Ring.Finset

/-!
# Security against generic attackers

Property C76.
-/

namespace Abe

open MvPolynomial

set_option linter.unusedSectionVars false

variable {K P Q QP T : Type} [Field K] [DecidableEq K] [AddCommGroup P] [Module K P] [AddCommGroup Q] [Module K Q]
  [AddCommGroup T] [Module K T]

section
variable {size k w : Nat}

theorem Curve.genP_ne_zero (c : Curve K P Q QP T) : c.genP ≠ 0 := fun h => c.genT_ne_zero (by rw [c.genT_eq, h, map_zero, LinearMap.zero_apply])

theorem Curve.genQ_ne_zero (c : Curve K P Q QP T) : c.genQ ≠ 0 := fun h => c.genT_ne_zero (by rw [c.genT_eq, h, map_zero])

/-- The polynomial of a comparison. -/
noncomputable def Query.poly (v : View (MvPolynomial (Coin size k w) K) (MvPolynomial (Coin size k w) K) (MvPolynomial (Coin size k w) K)) :
    Query K → MvPolynomial (Coin size k w) K
  | .p coefs => (v.p.zipIdx.map fun x => C (coefs x.2) * x.1).sum
  | .q coefs => (v.q.zipIdx.map fun x => C (coefs x.2) * x.1).sum
  | .t σ => σ.poly v

theorem combine_map {M : Type} [AddCommGroup M] [Module K M] (ω : Coins K size k w) (coefs : Nat → K) (l : List (MvPolynomial (Coin size k w) K)) (d : K)
    (g : M) : combine coefs (l.map fun f => (eval ω f / d) • g) = (eval ω (l.zipIdx.map fun x => C (coefs x.2) * x.1).sum / d) • g := by
  unfold combine
  rw [zipIdx_map', List.map_map, map_list_sum, List.map_map, div_eq_mul_inv, ← List.sum_map_mul_right, ← sum_map_smul_right]
  congr 1
  refine List.map_congr_left fun x _ => ?_
  simp only [Function.comp, map_mul, eval_C, smul_smul]
  congr 1
  ring

theorem Rep.holds {c : Curve K P Q QP T} {ω : Coins K size k w} (hω : ω.Good) {v : View P Q T}
    {pv : View (MvPolynomial (Coin size k w) K) (MvPolynomial (Coin size k w) K) (MvPolynomial (Coin size k w) K)} (h : Rep c ω v pv) (q : Query K) :
    q.Holds c v ↔ MvPolynomial.eval ω (q.poly pv) = 0 := by
  have h0 := eval_allT hω
  cases q with
  | p coefs =>
    have := combine_map ω coefs pv.p 1 c.genP
    simp only [div_one] at this
    simp only [Query.Holds, Query.poly]
    rw [h.p, this, smul_eq_zero, or_iff_left c.genP_ne_zero]
  | q coefs =>
    simp only [Query.Holds, Query.poly]
    rw [h.q, combine_map, smul_eq_zero, or_iff_left c.genQ_ne_zero, div_eq_zero_iff, or_iff_left h0]
  | t σ =>
    simp only [Query.Holds, Query.poly]
    rw [h.eval, smul_eq_zero, or_iff_left c.genT_ne_zero, div_eq_zero_iff, or_iff_left h0]

theorem Query.degree {S : Sym K} (hS : S.Ok size) (b : Bool) (q : Query K) :
    (q.poly (S.view b) : MvPolynomial (Coin size k w) K).totalDegree ≤ size + 2 := by
  cases q with
  | p coefs =>
    refine totalDegree_sum_le fun f hf => ?_
    obtain ⟨x, hx, rfl⟩ := List.mem_map.1 hf
    exact (totalDegree_C_mul _ _).trans ((totalDegree_pX (List.fst_mem_of_mem_zipIdx hx)).trans (by omega))
  | q coefs =>
    refine totalDegree_sum_le fun f hf => ?_
    obtain ⟨x, hx, rfl⟩ := List.mem_map.1 hf
    exact (totalDegree_C_mul _ _).trans ((totalDegree_qX hS.msps (List.fst_mem_of_mem_zipIdx hx)).trans (by omega))
  | t σ => exact Sym.degree hS b σ

/-- Relation of the symbolic state with what the attacker asked for. -/
structure Sym.Tracks (S : Sym K) (size k w : Nat) (users : List (Policy × AccessPolicy)) : Prop where
  ok : S.Ok size
  each : List.Forall₂ (UserOk size w) users S.msps
  count : users.length ≤ k
  early : ∀ x, S.chal = some x → x.2.2 ≤ S.msps.length
  unauthorised : ∀ x, S.chal = some x → ∀ u ∈ users, ¬ u.2.Sat u.1 fun b => ∃ v, u.1.HasValue b v ∧ v ∈ x.1

theorem Sym.view_p (S : Sym K) (b b' : Bool) : (S.view b' : View (MvPolynomial (Coin size k w) K) _ _).p = (S.view b).p := rfl

theorem Sym.view_q (S : Sym K) (b b' : Bool) : (S.view b' : View (MvPolynomial (Coin size k w) K) _ _).q = (S.view b).q := rfl

theorem Sym.view_t (S : Sym K) (b b' : Bool) (coefs : Nat → K) (h : S.chal ≠ none → coefs 2 = 0) :
    ((S.view b' : View (MvPolynomial (Coin size k w) K) _ _).t.zipIdx.map fun x => C (coefs x.2) * x.1).sum =
      ((S.view b).t.zipIdx.map fun x => C (coefs x.2) * x.1).sum := by
  unfold Sym.view
  cases hx : S.chal with
  | none => simp only [Option.toList_none, List.map_nil]
  | some x =>
    simp only [Option.toList_some, List.map_cons, List.map_nil, List.zipIdx_cons, List.zipIdx_nil, List.sum_cons, List.sum_nil, Nat.zero_add, Nat.reduceAdd,
      h (by simp [hx]), map_zero, zero_mul]

theorem Sym.poly_zero {S : Sym K} {users : List (Policy × AccessPolicy)} (c : Curve K P Q QP T) (t : Target) (hS : S.Tracks size k w users)
    (hK : ∃ m : K, m ≠ 0 ∧ m ≠ 1) (q : Query K) {b b' : Bool} (h : (q.poly (S.view b) : MvPolynomial (Coin size k w) K) = 0) :
    (q.poly (S.view b') : MvPolynomial (Coin size k w) K) = 0 := by
  cases q with
  | p coefs =>
    unfold Query.poly at h ⊢
    simp only [] at h ⊢
    rwa [Sym.view_p S b b']
  | q coefs =>
    unfold Query.poly at h ⊢
    simp only [] at h ⊢
    rwa [Sym.view_q S b b']
  | t σ =>
    unfold Query.poly at h ⊢
    simp only [] at h ⊢
    have h2 : S.chal ≠ none → σ.direct 2 = 0 := by
      intro hne
      obtain ⟨x, hx⟩ := Option.ne_none_iff_exists'.1 hne
      exact Sym.trivial c t hS.ok hK hS.each hS.count hx (hS.unauthorised x hx) h
    unfold Strategy.poly at h ⊢
    rwa [Sym.view_p S b b', Sym.view_q S b b', Sym.view_t S b b' σ.direct h2]

theorem keysOf_append (c : Curve K P Q QP T) (ω : Coins K size k w) (ms : List (Msp Int)) (m : Msp Int) :
    keysOf c ω (ms ++ [m]) = keysOf c ω ms ++ [keyOf c ω.tI m (shareOf m (vecK (ω.key ms.length) (ω .y) m.nbCol))] := by
  unfold keysOf
  rw [List.zipIdx_append, List.map_append]
  simp

/-- The outcome of the game does not depend on the message encrypted, except for few coins. -/
theorem Adversary.core [Fintype K] (c : Curve K P Q QP T) (t : Target) (hK : ∃ m : K, m ≠ 0 ∧ m ≠ 1) (A : Adversary K) :
    ∀ (S : Sym K) (users lusers : List (Policy × AccessPolicy)) (n : Nat) (target : Option (List UInt32)), S.Tracks size k w users →
      users.length + n ≤ k → (∀ u ∈ users, u ∈ lusers) → (∀ x, S.chal = some x → target = some x.1) → A.Legit w n lusers target →
      ∃ g : Bool, ∀ b, ∃ B : Finset (Coins K size k w), B.card * Fintype.card K ≤ A.comparisons * (size + 2) * Fintype.card (Coins K size k w) ∧
        ∀ ω, ω.Good → ω ∉ B → A.run c t ω b (S.state c ω b) = g := by
  induction A with
  | guess g => exact fun _ _ _ _ _ _ _ _ _ _ => ⟨g, fun b => ⟨∅, by simp, fun _ _ _ => rfl⟩⟩
  | compare q yes no ihy ihn =>
    intro S users lusers n target hS hn hu ht hl
    by_cases h0 : (q.poly (S.view true) : MvPolynomial (Coin size k w) K) = 0
    · obtain ⟨g, hg⟩ := ihy S users lusers n target hS hn hu ht hl.1
      refine ⟨g, fun b => ?_⟩
      obtain ⟨B, hB, hrun⟩ := hg b
      refine ⟨B, hB.trans (Nat.mul_le_mul_right _ (Nat.mul_le_mul_right _ (by simp only [Adversary.comparisons]; omega))), fun ω hω hωB => ?_⟩
      have hh : q.Holds c ((S.state c ω b).view c) := by
        rw [(Sym.rep c hω hS.ok b).holds hω q, Sym.poly_zero c t hS hK q h0, map_zero]
      unfold Adversary.run
      rw [if_pos hh]
      exact hrun ω hω hωB
    · obtain ⟨g, hg⟩ := ihn S users lusers n target hS hn hu ht hl.2
      refine ⟨g, fun b => ?_⟩
      obtain ⟨B, hB, hrun⟩ := hg b
      have hb : (q.poly (S.view b) : MvPolynomial (Coin size k w) K) ≠ 0 := fun h => h0 (Sym.poly_zero c t hS hK q h)
      refine ⟨B ∪ Finset.univ.filter fun ω => eval ω (q.poly (S.view b)) = 0, ?_, fun ω hω hωB => ?_⟩
      · have hz := zeros_bound hb (Query.degree hS.ok b q)
        have hle := Finset.card_union_le B (Finset.univ.filter fun ω : Coins K size k w => eval ω (q.poly (S.view b)) = 0)
        have hm : no.comparisons * (size + 2) * Fintype.card (Coins K size k w) ≤
            max yes.comparisons no.comparisons * (size + 2) * Fintype.card (Coins K size k w) :=
          Nat.mul_le_mul_right _ (Nat.mul_le_mul_right _ (le_max_right _ _))
        simp only [Adversary.comparisons]
        calc _ ≤ (B.card + (Finset.univ.filter fun ω : Coins K size k w => eval ω (q.poly (S.view b)) = 0).card) * Fintype.card K :=
              Nat.mul_le_mul_right _ hle
          _ ≤ max yes.comparisons no.comparisons * (size + 2) * Fintype.card (Coins K size k w) + (size + 2) * Fintype.card (Coins K size k w) := by
              rw [Nat.add_mul]
              exact Nat.add_le_add (hB.trans hm) hz
          _ = _ := by ring
      · rw [Finset.mem_union, Finset.mem_filter, not_or] at hωB
        have hh : ¬ q.Holds c ((S.state c ω b).view c) := by
          rw [(Sym.rep c hω hS.ok b).holds hω q]
          exact fun h => hωB.2 ⟨Finset.mem_univ _, h⟩
        unfold Adversary.run
        rw [if_neg hh]
        exact hrun ω hω hωB.1
  | key p ap next ih =>
    intro S users lusers n target hS hn hu ht hl
    cases n with
    | zero => exact absurd hl (by simp [Adversary.Legit])
    | succ n =>
      obtain ⟨hr, hcols, hun, hnext⟩ := hl
      have hw := reachable_wf hr
      by_cases hv : ap.Valid p ∧ ∀ b v, ap.Grants p b → p.HasValue b v → v.toNat < size
      · obtain ⟨m, hm⟩ : ∃ m, policyToMsp p ap = .ok m := by
          rcases policyToMsp_spec hw ap with ⟨_, m, _, h1, _⟩ | ⟨hnv, _⟩
          · exact ⟨m, h1⟩
          · exact absurd hv.1 hnv
        have huser : UserOk size w (p, ap) m := ⟨hw, hv.1, hv.2, hm, hcols m hm⟩
        have htake : ∀ x, S.chal = some x → (S.msps ++ [m]).take x.2.2 = S.msps.take x.2.2 := fun x hx => List.take_append_of_le_length (hS.early x hx)
        obtain ⟨g, hg⟩ := ih ⟨S.msps ++ [m], S.chal⟩ (users ++ [(p, ap)]) ((p, ap) :: lusers) n target
          ⟨⟨fun m' hm' => by
              rcases List.mem_append.1 hm' with h | h
              · exact hS.ok.msps m' h
              · rw [List.mem_singleton.1 h]; exact huser.rows, hS.ok.len, hS.ok.chal⟩,
            List.rel_append hS.each (.cons huser .nil), by simp; omega, fun x hx => by simpa using Nat.le_succ_of_le (hS.early x hx),
            fun x hx u hu' => by
              rcases List.mem_append.1 hu' with h | h
              · exact hS.unauthorised x hx u h
              · rw [List.mem_singleton.1 h]; exact hun x.1 (ht x hx)⟩
          (by simp; omega) (fun u hu' => by
            rcases List.mem_append.1 hu' with h | h
            · exact List.mem_cons_of_mem _ (hu u h)
            · rw [List.mem_singleton.1 h]; simp) ht hnext
        refine ⟨g, fun b => ?_⟩
        obtain ⟨B, hB, hrun⟩ := hg b
        refine ⟨B, hB, fun ω hω hωB => ?_⟩
        rw [← hrun ω hω hωB]
        have hlen : (S.state c ω b).keys.length = S.msps.length := by simp [Sym.state, keysOf]
        have hkey : engineGenerateUserKey (bls c) p (S.state c ω b).master.privKey ap (ω.key (S.state c ω b).keys.length) = _ :=
          huser.key c ω.tI_length (Coins.tI_ne hω) (ω .y) (ω.key (S.state c ω b).keys.length)
        rw [Adversary.run, hkey, hlen]
        simp only []
        congr 1
        unfold Sym.state
        simp only []
        rw [keysOf_append]
        congr 1
        cases hx : S.chal with
        | none => rfl
        | some x =>
          simp only [Option.map_some, Option.some.injEq]
          unfold Sym.msg
          rw [htake x hx]
      · obtain ⟨g, hg⟩ := ih S users ((p, ap) :: lusers) n target hS (by omega) (fun u hu' => List.mem_cons_of_mem _ (hu u hu')) ht hnext
        refine ⟨g, fun b => ?_⟩
        obtain ⟨B, hB, hrun⟩ := hg b
        refine ⟨B, hB, fun ω hω hωB => ?_⟩
        rw [← hrun ω hω hωB]
        obtain ⟨e, he⟩ := (C07_key_generation_success c hw (Coins.tI_ne hω) (ω .y) ap (ω.key (S.state c ω b).keys.length)).2
          (by rw [ω.tI_length]; exact hv)
        have hkey : engineGenerateUserKey (bls c) p (S.state c ω b).master.privKey ap (ω.key (S.state c ω b).keys.length) = _ := he
        rw [Adversary.run, hkey]
  | challenge gamma m0 m1 next ih =>
    intro S users lusers n target hS hn hu ht hl
    obtain ⟨htn, hun, hnext⟩ := hl
    have hc : S.chal = none := by
      cases hx : S.chal with
      | none => rfl
      | some x => rw [htn] at ht; simpa using ht x hx
    by_cases hv : gamma.length < size ∧ ∀ a ∈ gamma, a.toNat < size
    · obtain ⟨g, hg⟩ := ih ⟨S.msps, some (gamma, fun b => if b then m1 else m0, S.msps.length)⟩ users lusers n (some gamma)
        ⟨⟨hS.ok.msps, fun x hx => by rw [← Option.some.inj hx]; exact hv.1, fun x hx => by rw [← Option.some.inj hx]; exact hv.2⟩,
          hS.each, hS.count, fun x hx => by rw [← Option.some.inj hx], fun x hx u hu' => by
            rw [← Option.some.inj hx]; exact hun u (hu u hu')⟩
        hn hu (fun x hx => by rw [← Option.some.inj hx]) hnext
      refine ⟨g, fun b => ?_⟩
      obtain ⟨B, hB, hrun⟩ := hg b
      refine ⟨B, hB, fun ω hω hωB => ?_⟩
      rw [← hrun ω hω hωB]
      have hct : (S.state c ω b).ct = none := by unfold Sym.state; rw [hc]; rfl
      have henc : encrypt (bls c) t ((if b then m1 else m0).eval c ((S.state c ω b).view c)) gamma (S.state c ω b).master.pubKey (ω .s) = _ :=
        encrypt_ok c t ω.tI (ω .y) (ω .s) ((if b then m1 else m0).eval c ((S.state c ω b).view c)) gamma (by rw [ω.tI_length]; exact hv.1)
          (by rw [ω.tI_length]; exact hv.2)
      rw [Adversary.run, hct, henc]
      simp only []
      congr 1
      unfold Sym.state
      simp only [hc, Option.map_some, Option.map_none]
      congr 3
      unfold Sym.msg
      simp only [List.take_length]
    · obtain ⟨g, hg⟩ := ih S users lusers n (some gamma) hS hn hu (fun x hx => by rw [hc] at hx; simp at hx) hnext
      refine ⟨g, fun b => ?_⟩
      obtain ⟨B, hB, hrun⟩ := hg b
      refine ⟨B, hB, fun ω hω hωB => ?_⟩
      rw [← hrun ω hω hωB]
      have hct : (S.state c ω b).ct = none := by unfold Sym.state; rw [hc]; rfl
      have henc : ∀ ct, encrypt (bls c) t ((if b then m1 else m0).eval c ((S.state c ω b).view c)) gamma (S.state c ω b).master.pubKey (ω .s) ≠ .ok ct := by
        intro ct h
        have h' : encrypt (bls c) t ((if b then m1 else m0).eval c ((S.state c ω b).view c)) gamma (pubOf c ω.tI (ω .y)) (ω .s) = .ok ct := h
        rcases encrypt_cases c t ω.tI (ω .y) (ω .s) ((if b then m1 else m0).eval c ((S.state c ω b).view c)) gamma with
          ⟨_, _, h1⟩ | h1 | ⟨h1, h2, _⟩ | ⟨_, _, h1⟩
        · rw [h1] at h'; simp at h'
        · unfold encrypt at h'
          have hz : (pubOf c ω.tI (ω .y)).tI.length = 0 := by simp [pubOf, h1]
          rw [hz, if_pos (Nat.zero_le _)] at h'
          unfold Target.usub at h'
          split at h' <;> simp [Res.ok_bind] at h'
          split at h' <;> simp [Res.ok_bind] at h'
        · rw [ω.tI_length] at h1 h2; exact hv ⟨h1, h2⟩
        · rw [h1] at h'; simp at h'
      rw [Adversary.run, hct]
      generalize encrypt (bls c) t ((if b then m1 else m0).eval c ((S.state c ω b).view c)) gamma (S.state c ω b).master.pubKey (ω .s) = r at henc
      cases r with
      | ok ct => exact absurd rfl (henc ct)
      | err e => rfl
      | panic => rfl

/-- **C76.** Security in the generic group model: an attacker who may ask for user keys at any time, none of which is authorised for the challenge, and
makes `n` comparisons, guesses which of two messages was encrypted with an advantage of at most `n * (size + 2)` divided by the number of scalars. -/
theorem C76_generic_security [Fintype K] (c : Curve K P Q QP T) (t : Target) (size k w : Nat) (hK : 2 < Fintype.card K) (A : Adversary K)
    (hA : A.Legit w k [] none) :
    |A.prob c t size k w true - A.prob c t size k w false| ≤ A.comparisons * (size + 2) / Fintype.card K := by
  classical
  have hK' : ∃ m : K, m ≠ 0 ∧ m ≠ 1 := by
    by_contra hno
    push Not at hno
    have : (Finset.univ : Finset K) ⊆ {0, 1} := fun m _ => by
      by_cases hm : m = 0
      · simp [hm]
      · simp [hno m hm]
    have := (Finset.card_le_card this).trans Finset.card_le_two
    rw [Finset.card_univ] at this
    omega
  obtain ⟨g, hg⟩ := Adversary.core (size := size) (k := k) (w := w) c t hK' A ⟨[], none⟩ [] [] k none
    ⟨⟨by simp, by simp, by simp⟩, .nil, by simp, by simp, by simp⟩ (by simp) (by simp) (by simp) hA
  have hplay : ∀ (ω : Coins K size k w) b, ω.Good → A.play c t ω b = A.run c t ω b (Sym.state ⟨[], none⟩ c ω b) := by
    intro ω b hω
    unfold Adversary.play
    rw [generateMasterKey_ok c size ω.master (ω .y) fun i hi => Coins.master_ne hω hi]
    rfl
  have hbad : ∀ (ω : Coins K size k w) b, ¬ ω.Good → A.play c t ω b = false := by
    intro ω b hω
    unfold Coins.Good at hω
    push Not at hω
    obtain ⟨i, hi⟩ := hω
    unfold Adversary.play
    rw [generateMasterKey_panic c size ω.master (ω .y) ⟨i, i.2, by unfold Coins.master; rw [dif_pos i.2]; exact hi⟩]
  have hq : (0 : ℚ) < Fintype.card K := by exact_mod_cast (by omega : 0 < Fintype.card K)
  have hΩ : (0 : ℚ) < Fintype.card (Coins K size k w) := by exact_mod_cast Fintype.card_pos
  set M : ℚ := A.comparisons * (size + 2) / Fintype.card K * Fintype.card (Coins K size k w) with hM
  set G : ℚ := ((Finset.univ.filter fun ω : Coins K size k w => ω.Good).card : ℚ) with hG
  have hcount : ∀ b, ∃ x y : ℚ, (g = false → x = 0 ∧ y = M) ∧ (g = true → x = G - M ∧ y = G) ∧
      x ≤ (Finset.univ.filter fun ω : Coins K size k w => A.play c t ω b = true).card ∧
      ((Finset.univ.filter fun ω : Coins K size k w => A.play c t ω b = true).card : ℚ) ≤ y := by
    intro b
    obtain ⟨B, hB, hrun⟩ := hg b
    have hBM : (B.card : ℚ) ≤ M := by
      rw [hM, div_mul_eq_mul_div, le_div_iff₀ hq]
      exact_mod_cast hB
    cases hgb : g with
    | false =>
      refine ⟨0, M, by simp, by simp, by positivity, le_trans ?_ hBM⟩
      have : (Finset.univ.filter fun ω : Coins K size k w => A.play c t ω b = true) ⊆ B := by
        intro ω h
        rw [Finset.mem_filter] at h
        by_contra hωB
        by_cases hω : ω.Good
        · rw [hplay ω b hω, hrun ω hω hωB, hgb] at h
          simp at h
        · rw [hbad ω b hω] at h
          simp at h
      exact_mod_cast Finset.card_le_card this
    | true =>
      refine ⟨G - M, G, by simp, by simp, ?_, ?_⟩
      · have : (Finset.univ.filter fun ω : Coins K size k w => ω.Good) ⊆ (Finset.univ.filter fun ω : Coins K size k w => A.play c t ω b = true) ∪ B := by
          intro ω h
          rw [Finset.mem_filter] at h
          rw [Finset.mem_union, Finset.mem_filter]
          by_cases hωB : ω ∈ B
          · exact .inr hωB
          · exact .inl ⟨Finset.mem_univ _, by rw [hplay ω b h.2, hrun ω h.2 hωB, hgb]⟩
        have := (Finset.card_le_card this).trans (Finset.card_union_le _ _)
        have : G ≤ (Finset.univ.filter fun ω : Coins K size k w => A.play c t ω b = true).card + B.card := by rw [hG]; exact_mod_cast this
        linarith
      · have : (Finset.univ.filter fun ω : Coins K size k w => A.play c t ω b = true) ⊆ Finset.univ.filter fun ω : Coins K size k w => ω.Good := by
          intro ω h
          rw [Finset.mem_filter] at h ⊢
          refine ⟨Finset.mem_univ _, ?_⟩
          by_contra hω
          rw [hbad ω b hω] at h
          simp at h
        rw [hG]
        exact_mod_cast Finset.card_le_card this
  unfold Adversary.prob
  rw [← sub_div, abs_div, abs_of_pos hΩ, div_le_iff₀ hΩ]
  obtain ⟨x1, y1, a1, b1, l1, u1⟩ := hcount true
  obtain ⟨x2, y2, a2, b2, l2, u2⟩ := hcount false
  rw [abs_le]
  cases hgb : g with
  | false =>
    obtain ⟨rfl, rfl⟩ := a1 hgb
    obtain ⟨rfl, rfl⟩ := a2 hgb
    constructor <;> linarith
  | true =>
    obtain ⟨rfl, rfl⟩ := b1 hgb
    obtain ⟨rfl, rfl⟩ := b2 hgb
    constructor <;> linarith

theorem allT_ne_zero : (allT : MvPolynomial (Coin size k w) K) ≠ 0 := by
  intro h
  have := eval_allT (K := K) (ω := fun _ : Coin size k w => 1) fun i => one_ne_zero
  rw [h, map_zero] at this
  exact this rfl

theorem good_of_allT {ω : Coins K size k w} (h : eval ω (allT : MvPolynomial (Coin size k w) K) ≠ 0) : ω.Good := by
  unfold allT at h
  rw [map_prod, Finset.prod_ne_zero_iff] at h
  intro i
  have := h i (Finset.mem_univ _)
  rwa [eval_X] at this

/-- The attacker who asks for one key, then for the encryption of zero or of the generator, and applies a strategy to tell which. -/
def opener (p : Policy) (ap : AccessPolicy) (gamma : List UInt32) (σ : Strategy K) : Adversary K :=
  .key p ap (.challenge gamma ⟨fun _ _ => 0, fun _ => 0⟩ ⟨fun _ _ => 0, fun i => if i = 0 then 1 else 0⟩ (.compare (.t σ) (.guess false) (.guess true)))

/-- **C76.** The rules of the game are needed: with one key that is authorised for the challenge, an attacker tells the messages apart with one comparison
whenever there is a master key. -/
theorem C76_authorised_wins [Fintype K] (c : Curve K P Q QP T) (t : Target) (size k w : Nat) {p : Policy} (hw : p.WF) {ap : AccessPolicy}
    (hv : ap.Valid p) (hr : ∀ b v, ap.Grants p b → p.HasValue b v → v.toNat < size) {gamma : List UInt32}
    (hg : gamma.length < size ∧ ∀ a ∈ gamma, a.toNat < size) (hs : ap.Sat p fun b => ∃ v, p.HasValue b v ∧ v ∈ gamma) :
    ∃ σ, (opener p ap gamma σ : Adversary K).prob c t size k w false = 0 ∧
      1 - size / Fintype.card K ≤ (opener p ap gamma σ : Adversary K).prob c t size k w true := by
  obtain ⟨σ, hσ⟩ := C61_authorised_opens (K := K) c t (size := size) (users := [(p, ap)]) (by simpa using hw) [] hg (List.mem_singleton.2 rfl) hv hs
  refine ⟨σ, ?_⟩
  have hbad : ∀ (ω : Coins K size k w) b, ¬ ω.Good → (opener p ap gamma σ : Adversary K).play c t ω b = false := by
    intro ω b hω
    unfold Coins.Good at hω
    push Not at hω
    obtain ⟨i, hi⟩ := hω
    unfold Adversary.play
    rw [generateMasterKey_panic c size ω.master (ω .y) ⟨i, i.2, by unfold Coins.master; rw [dif_pos i.2]; exact hi⟩]
  have hgood : ∀ (ω : Coins K size k w) b, ω.Good → (opener p ap gamma σ : Adversary K).play c t ω b = b := by
    intro ω b hω
    have hmk := generateMasterKey_ok c size ω.master (ω .y) fun i hi => Coins.master_ne hω hi
    unfold Adversary.play
    rw [hmk]
    have hmk' : generateMasterKey (bls c) size ω.master (ω .y) = .ok (ω.masterKey c) := hmk
    change Adversary.run c t ω b _ ⟨ω.masterKey c, [], none⟩ = b
    obtain ⟨key, hkey⟩ := (C07_key_generation_success c hw (Coins.tI_ne hω) (ω .y) ap (ω.key 0)).1 ⟨hv, by rw [ω.tI_length]; exact hr⟩
    unfold opener
    rw [Adversary.run]
    have hkey' : engineGenerateUserKey (bls c) p (ω.masterKey c).privKey ap (ω.key ([] : List (DecryptionKey K QP Q)).length) = .ok key := hkey
    rw [hkey']
    simp only [List.nil_append]
    rw [Adversary.run]
    have henc : ∀ msg, encrypt (bls c) t msg gamma (ω.masterKey c).pubKey (ω .s) = .ok (ctOf c ω.tI (ω .y) (ω .s) msg gamma) := fun msg =>
      encrypt_ok c t ω.tI (ω .y) (ω .s) msg gamma (by rw [ω.tI_length]; exact hg.1) (by rw [ω.tI_length]; exact hg.2)
    rw [henc]
    simp only []
    set msg := ((if b = true then (⟨fun _ _ => 0, fun i => if i = 0 then 1 else 0⟩ : Strategy K) else ⟨fun _ _ => 0, fun _ => 0⟩).eval c
      (GameState.view c ⟨ω.masterKey c, [key], none⟩)) with hmsg
    have hopen := hσ ω.master (ω .y) _ hmk' [key] (.cons ⟨_, hkey⟩ .nil) (ω .s) msg _ (henc msg) [] .nil
    have hview : GameState.view c ⟨ω.masterKey c, [key], some (ctOf c ω.tI (ω .y) (ω .s) msg gamma)⟩ =
        View.of c (ω.masterKey c) [key] (ctOf c ω.tI (ω .y) (ω .s) msg gamma) [] := rfl
    rw [Adversary.run, Query.Holds, hview, hopen]
    cases b with
    | false =>
      have : msg = 0 := by rw [hmsg]; simp [Strategy.eval]
      rw [if_pos this, Adversary.run]
    | true =>
      have : msg = c.genT := by rw [hmsg]; simp [Strategy.eval, GameState.view]
      rw [if_neg (by rw [this]; exact c.genT_ne_zero), Adversary.run]
  have hΩ : (0 : ℚ) < Fintype.card (Coins K size k w) := by exact_mod_cast Fintype.card_pos
  have hq : (0 : ℚ) < Fintype.card K := by exact_mod_cast Fintype.card_pos
  unfold Adversary.prob
  constructor
  · rw [Finset.filter_eq_empty_iff.2, Finset.card_empty, Nat.cast_zero, zero_div]
    intro ω _
    by_cases hω : ω.Good
    · rw [hgood ω false hω]; simp
    · rw [hbad ω false hω]; simp
  · have hz := zeros_bound (K := K) (f := (allT : MvPolynomial (Coin size k w) K)) (d := size) allT_ne_zero totalDegree_allT
    rw [le_div_iff₀ hΩ, sub_mul, one_mul, div_mul_eq_mul_div, sub_le_iff_le_add, ← sub_le_iff_le_add', le_div_iff₀ hq]
    have hsub : Fintype.card (Coins K size k w) ≤ (Finset.univ.filter fun ω : Coins K size k w => (opener p ap gamma σ : Adversary K).play c t ω true = true).card +
        (Finset.univ.filter fun ω : Coins K size k w => eval ω (allT : MvPolynomial (Coin size k w) K) = 0).card := by
      rw [← Finset.card_univ]
      refine (Finset.card_le_card fun ω _ => ?_).trans (Finset.card_union_le _ _)
      rw [Finset.mem_union, Finset.mem_filter, Finset.mem_filter]
      by_cases h0 : eval ω (allT : MvPolynomial (Coin size k w) K) = 0
      · exact .inr ⟨Finset.mem_univ _, h0⟩
      · exact .inl ⟨Finset.mem_univ _, hgood ω true (good_of_allT h0)⟩
    have : (Fintype.card (Coins K size k w) : ℚ) ≤ (Finset.univ.filter fun ω : Coins K size k w => (opener p ap gamma σ : Adversary K).play c t ω true = true).card +
        (Finset.univ.filter fun ω : Coins K size k w => eval ω (allT : MvPolynomial (Coin size k w) K) = 0).card := by exact_mod_cast hsub
    have hz' : ((Finset.univ.filter fun ω : Coins K size k w => eval ω (allT : MvPolynomial (Coin size k w) K) = 0).card : ℚ) * Fintype.card K ≤
        size * Fintype.card (Coins K size k w) := by exact_mod_cast hz
    calc _ ≤ ((Finset.univ.filter fun ω : Coins K size k w => eval ω (allT : MvPolynomial (Coin size k w) K) = 0).card : ℚ) * Fintype.card K :=
          mul_le_mul_of_nonneg_right (by linarith) hq.le
      _ ≤ _ := hz'

end

namespace Demo

/-- An attacker with two keys, for `High && (HR || MKG)` before and for `MKG` after a challenge for `HR`, who tries any computation. -/
def attacker (m0 m1 σ : Strategy F) : Adversary F :=
  .key policy ap (.challenge [4] m0 m1 (.key policy (.attr mkg) (.compare (.t σ) (.guess true) (.guess false))))

theorem attacker_legit (m0 m1 σ : Strategy F) : (attacker m0 m1 σ).Legit 1 2 [] none := by
  have hap : ¬ ap.Sat policy fun b => ∃ v, policy.HasValue b v ∧ v ∈ [(4 : UInt32)] := by
    rintro ⟨⟨b, h1, v, h2, h4⟩, _⟩
    obtain rfl := List.mem_singleton.1 h4
    have hb : b = hr := h2.inj (reachable_wf policy_reachable) ⟨[4], by decide +kernel, by simp⟩
    subst hb
    obtain ⟨_, _, _, _, _, h, _⟩ := h1
    exact absurd h (by decide +kernel)
  have hmkg : ¬ (AccessPolicy.attr mkg).Sat policy fun b => ∃ v, policy.HasValue b v ∧ v ∈ [(4 : UInt32)] := by
    rintro ⟨b, h1, v, h2, h4⟩
    obtain rfl := List.mem_singleton.1 h4
    have hb : b = hr := h2.inj (reachable_wf policy_reachable) ⟨[4], by decide +kernel, by simp⟩
    subst hb
    obtain ⟨_, _, h, hax, _, _, hn⟩ := h1
    rw [show hget policy.axes mkg.axis = some (["RnD", "HR", "MKG"], false) by decide +kernel, Option.some.injEq, Prod.mk.injEq] at hax
    rcases hn with hn | hn
    · exact absurd hn (by decide +kernel)
    · rw [← hax.2] at hn
      simp at hn
  have hcols : ∀ (a : AccessPolicy), (a = ap ∨ a = .attr mkg) → ∀ msp, policyToMsp policy a = .ok msp → msp.nbCol ≤ 1 + 1 := by
    intro a ha msp hmsp
    have : (match policyToMsp policy a with | .ok m => decide (m.nbCol ≤ 1 + 1) | _ => true) = true := by
      rcases ha with rfl | rfl <;> decide +kernel
    rw [hmsp] at this
    simpa using this
  refine ⟨policy_reachable, hcols _ (.inl rfl), by simp, rfl, by simpa using hap, policy_reachable, hcols _ (.inr rfl), ?_, trivial, trivial⟩
  intro gamma hg
  rw [← Option.some.inj hg]
  exact hmkg

/-- **C76** for this attacker and master keys of size 6. -/
example (m0 m1 σ : Strategy F) :
    |(attacker m0 m1 σ).prob curveF .release64 6 2 1 true - (attacker m0 m1 σ).prob curveF .release64 6 2 1 false| ≤ 8 / 11 := by
  have := C76_generic_security curveF .release64 6 2 1 (by rw [ZMod.card]; decide) _ (attacker_legit m0 m1 σ)
  rw [ZMod.card] at this
  norm_num [attacker, Adversary.comparisons] at this ⊢
  exact this

theorem ap_authorised : (ap.Valid policy ∧ ∀ b v, ap.Grants policy b → policy.HasValue b v → v.toNat < 8) ∧
    ap.Sat policy (fun b => ∃ v, policy.HasValue b v ∧ v ∈ [(1 : UInt32), 4]) := by
  have hw := reachable_wf policy_reachable
  have hv : ap.Valid policy ∧ ∀ b v, ap.Grants policy b → policy.HasValue b v → v.toNat < 8 := by
    by_contra hn
    obtain ⟨e, he⟩ := (C07_key_generation_success curveF hw (tI := List.replicate 8 1) (by decide +kernel) 1 ap drawsF).2 (by simpa using hn)
    exact absurd he (by
      intro h
      have : (match engineGenerateUserKey (bls curveF) policy ⟨List.replicate 8 1, 1⟩ ap drawsF with | .err _ => true | _ => false) = false := by decide +kernel
      rw [h] at this
      simp at this)
  have hs : ap.Sat policy (fun b => ∃ v, policy.HasValue b v ∧ v ∈ [(1 : UInt32), 4]) := by
    refine ⟨⟨low, ⟨["Low"], [], true, by decide +kernel, by decide +kernel, rfl, Or.inr ⟨rfl, by decide +kernel⟩⟩, 1,
      ⟨[1], by decide +kernel, by decide⟩, by decide⟩, Or.inl ⟨hr, ?_, 4, ⟨[4], by decide +kernel, by decide⟩, by decide⟩⟩
    exact ⟨["RnD"], ["MKG"], false, by decide +kernel, by decide +kernel, rfl, Or.inl rfl⟩
  exact ⟨hv, hs⟩

/-- A key for the same access policy is authorised for a challenge for `Low` and `HR`. -/
example : ∃ σ, (opener policy ap [1, 4] σ : Adversary F).prob curveF .release64 8 1 1 false = 0 ∧
    3 / 11 ≤ (opener policy ap [1, 4] σ : Adversary F).prob curveF .release64 8 1 1 true := by
  have hw := reachable_wf policy_reachable
  obtain ⟨hv, hs⟩ := ap_authorised
  obtain ⟨σ, h1, h2⟩ := C76_authorised_wins curveF .release64 8 1 1 hw hv.1 hv.2 (gamma := [1, 4]) (by decide) hs
  refine ⟨σ, h1, le_trans (le_of_eq ?_) h2⟩
  rw [ZMod.card]
  norm_num

end Demo

end Abe
