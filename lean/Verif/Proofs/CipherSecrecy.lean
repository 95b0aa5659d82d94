import Verif.Spec.CipherGame
import Verif.Proofs.GcmBlocks
import Verif.Props.GcmGame
import Verif.Props.SystemGame

/-!
# Hybrid messages with GCM: lemmas on confidentiality
-/

namespace Abe

open Gcm
open scoped ENNReal

variable {K P Q QP T Key Nonce : Type} [Field K] [DecidableEq K] [AddCommGroup P] [Module K P] [AddCommGroup Q] [Module K Q]
  [AddCommGroup T] [Module K T]

variable {shake : Bytes → Nat → Bytes} {metaEnc : Metadata → Out Bytes} {metaDec : Bytes → Out Metadata} {num : Nat → Bytes} {max : Nat}

/-! ## Nonces -/

theorem card_nonce : Fintype.card AesNonce = 2 ^ 96 := by
  have e : AesNonce ≃ (Fin 12 → Fin 256) :=
    { toFun := fun n i => (n.val.getD i 0).toFin
      invFun := fun f => ⟨List.ofFn fun i => UInt8.ofFin (f i), List.length_ofFn⟩
      left_inv := by
        intro n
        refine Subtype.ext (List.ext_getElem (List.length_ofFn.trans n.2.symm) fun i hi hi' => ?_)
        simp only [List.getElem_ofFn, List.getD_eq_getElem?_getD, List.getElem?_eq_getElem hi', Option.getD_some]
        rfl
      right_inv := by
        intro f
        funext i
        simp only [List.getD_eq_getElem?_getD]
        rw [List.getElem?_eq_getElem (by rw [List.length_ofFn]; exact i.2), List.getElem_ofFn]
        rfl }
  rw [Fintype.card_congr e, Fintype.card_fun, Fintype.card_fin, Fintype.card_fin]
  norm_num

/-- Without repetition: how few choices there are at least. -/
theorem descFactorial_ge (N : Nat) : ∀ k, 2 * N ^ (k + 1) ≤ 2 * N * N.descFactorial k + k * (k - 1) * N ^ k
  | 0 => by simp
  | k + 1 => by
    have ih := descFactorial_ge N k
    rw [Nat.descFactorial_succ, Nat.add_sub_cancel]
    rcases Nat.le_total N k with h | h
    · rw [Nat.sub_eq_zero_of_le h, Nat.zero_mul, Nat.mul_zero, Nat.zero_add, pow_succ N (k + 1), ← mul_assoc, mul_right_comm]
      refine Nat.mul_le_mul_right _ ?_
      rcases Nat.eq_zero_or_pos N with h0 | h0
      · subst h0
        simp
      · calc 2 * N ≤ (N + 1) * N := Nat.mul_le_mul_right _ (by omega)
          _ ≤ (k + 1) * k := Nat.mul_le_mul (by omega) h
    · obtain ⟨d, rfl⟩ := Nat.exists_eq_add_of_le h
      have h1 : d * (2 * (k + d) ^ (k + 1)) ≤ d * (2 * (k + d) * (k + d).descFactorial k + k * (k - 1) * (k + d) ^ k) := Nat.mul_le_mul_left _ ih
      have h2 : d * (k * (k - 1) * (k + d) ^ k) ≤ k * (k - 1) * (k + d) ^ (k + 1) := by
        rw [pow_succ]
        calc d * (k * (k - 1) * (k + d) ^ k) = k * (k - 1) * ((k + d) ^ k * d) := by ring
          _ ≤ k * (k - 1) * ((k + d) ^ k * (k + d)) := Nat.mul_le_mul_left _ (Nat.mul_le_mul_left _ (by omega))
      have h3 : (k + 1) * k = k * (k - 1) + 2 * k := by
        cases k with
        | zero => rfl
        | succ k => rw [Nat.add_sub_cancel]; ring
      rw [Nat.add_sub_cancel_left, h3]
      have h4 : 2 * (k + d) ^ (k + 1 + 1) = d * (2 * (k + d) ^ (k + 1)) + 2 * k * (k + d) ^ (k + 1) := by ring
      rw [h4, add_mul, ← add_assoc]
      refine Nat.add_le_add_right ?_ _
      calc d * (2 * (k + d) ^ (k + 1)) ≤ d * (2 * (k + d) * (k + d).descFactorial k + k * (k - 1) * (k + d) ^ k) := h1
        _ = 2 * (k + d) * (d * (k + d).descFactorial k) + d * (k * (k - 1) * (k + d) ^ k) := by ring
        _ ≤ _ := Nat.add_le_add_left h2 _

open Classical in
/-- How many choices have a repetition. -/
theorem card_repeating {α : Type} [Fintype α] (k : Nat) :
    2 * Fintype.card α * (Finset.univ.filter fun ν : Fin k → α => ¬ Function.Injective ν).card ≤ k * (k - 1) * Fintype.card α ^ k := by
  have h1 := Finset.card_filter_add_card_filter_not (s := (Finset.univ : Finset (Fin k → α))) fun ν => Function.Injective ν
  have h2 : (Finset.univ.filter fun ν : Fin k → α => Function.Injective ν).card = (Fintype.card α).descFactorial k := by
    rw [← Fintype.card_subtype, ← Fintype.card_congr (Equiv.subtypeInjectiveEquivEmbedding (Fin k) α).symm, Fintype.card_embedding_eq, Fintype.card_fin]
  have h3 := descFactorial_ge (Fintype.card α) k
  rw [h2, Finset.card_univ, Fintype.card_fun, Fintype.card_fin] at h1
  generalize (Finset.univ.filter fun ν : Fin k → α => ¬ Function.Injective ν).card = b at *
  have h4 : 2 * Fintype.card α ^ (k + 1) = 2 * Fintype.card α * (Fintype.card α).descFactorial k + 2 * Fintype.card α * b := by
    rw [← Nat.mul_add, h1]
    ring
  omega

theorem repeating_fraction {α : Type} [Fintype α] [Nonempty α] (k : Nat) [DecidablePred fun ν : Fin k → α => ¬ Function.Injective ν] :
    ((Finset.univ.filter fun ν : Fin k → α => ¬ Function.Injective ν).card : ℝ) / Fintype.card (Fin k → α) ≤ k * (k - 1 : Nat) / (2 * Fintype.card α) := by
  have hc : 2 * Fintype.card α * (Finset.univ.filter fun ν : Fin k → α => ¬ Function.Injective ν).card ≤ k * (k - 1) * Fintype.card α ^ k := by
    convert card_repeating (α := α) k
  have h0 : (0 : ℝ) < Fintype.card α := by exact_mod_cast Fintype.card_pos
  rw [Fintype.card_fun, Fintype.card_fin, Nat.cast_pow, div_le_div_iff₀ (by positivity) (by positivity)]
  have h1 : ((2 * Fintype.card α * (Finset.univ.filter fun ν : Fin k → α => ¬ Function.Injective ν).card : Nat) : ℝ) ≤ ((k * (k - 1) * Fintype.card α ^ k : Nat) : ℝ) :=
    Nat.cast_le.2 hc
  rw [Nat.cast_mul, Nat.cast_mul, Nat.cast_mul, Nat.cast_mul, Nat.cast_pow, Nat.cast_two] at h1
  linarith

/-! ## Probabilities -/

theorem prob_le_one (E : PMF Bool) : prob E ≤ 1 := by
  unfold prob
  exact ENNReal.toReal_le_of_le_ofReal zero_le_one (by simpa using E.coe_le_one true)

theorem prob_nonneg (E : PMF Bool) : 0 ≤ prob E := ENNReal.toReal_nonneg

theorem prob_bind_le {α : Type} (D : PMF α) (g : α → PMF Bool) {B : ℝ} (hB : 0 ≤ B) (h : ∀ d ∈ D.support, prob (g d) ≤ B) : prob (D.bind g) ≤ B := by
  unfold prob
  refine ENNReal.toReal_le_of_le_ofReal hB ?_
  rw [PMF.bind_apply]
  calc ∑' d, D d * g d true ≤ ∑' d, D d * ENNReal.ofReal B := by
        refine ENNReal.tsum_le_tsum fun d => ?_
        by_cases hd : D d = 0
        · rw [hd, zero_mul, zero_mul]
        · exact mul_le_mul_right (ENNReal.le_ofReal_iff_toReal_le (PMF.apply_ne_top _ _) hB |>.2 (h d ((PMF.mem_support_iff _ _).2 hd))) _
    _ = ENNReal.ofReal B := by rw [ENNReal.tsum_mul_right, D.tsum_coe, one_mul]

theorem le_prob_bind {α : Type} (D : PMF α) (g : α → PMF Bool) {B : ℝ} (hB : B ≤ 1) (h : ∀ d ∈ D.support, B ≤ prob (g d)) : B ≤ prob (D.bind g) := by
  have h1 := prob_bind_le D (fun d => (g d).map (· == false)) (B := 1 - B) (by linarith) fun d hd => by
    rw [prob_map_false]
    linarith [h d hd]
  rw [← PMF.map_bind, prob_map_false] at h1
  linarith

theorem prob_bind_near {α : Type} (D : PMF α) (g : α → PMF Bool) {B : ℝ} (hB : 0 ≤ B) (h : ∀ d ∈ D.support, |prob (g d) - 1 / 2| ≤ B) :
    |prob (D.bind g) - 1 / 2| ≤ B := by
  rw [abs_le]
  constructor
  · rcases le_or_gt (1 / 2 - B) 1 with h1 | h1
    · have := le_prob_bind D g h1 fun d hd => by linarith [(abs_le.1 (h d hd)).1]
      linarith
    · linarith
  · have := prob_bind_le D g (B := 1 / 2 + B) (by linarith) fun d hd => by linarith [(abs_le.1 (h d hd)).2]
    linarith

theorem prob_uniform_near {α : Type} [Fintype α] [Nonempty α] (f g : α → PMF Bool) (bad : Finset α) (h : ∀ a, a ∉ bad → prob (f a) = prob (g a)) :
    |prob ((PMF.uniformOfFintype α).bind f) - prob ((PMF.uniformOfFintype α).bind g)| ≤ (bad.card : ℝ) / Fintype.card α := by
  classical
  rw [prob_uniform, prob_uniform, ← sub_div, ← Finset.sum_sub_distrib, abs_div, Nat.abs_cast]
  refine div_le_div_of_nonneg_right ?_ (by positivity)
  refine (Finset.abs_sum_le_sum_abs _ _).trans ?_
  have : (bad.card : ℝ) = ∑ a : α, if a ∈ bad then (1 : ℝ) else 0 := by simp
  rw [this]
  refine Finset.sum_le_sum fun a _ => ?_
  by_cases ha : a ∈ bad
  · rw [if_pos ha, abs_le]
    constructor <;> linarith [prob_le_one (f a), prob_le_one (g a), prob_nonneg (f a), prob_nonneg (g a)]
  · rw [h a ha, sub_self, abs_zero, if_neg ha]

theorem prob_uniform_injective {α : Type} [Fintype α] [Nonempty α] (k : Nat) (f g : (Fin k → α) → PMF Bool) (h : ∀ ν, Function.Injective ν → prob (f ν) = prob (g ν)) :
    |prob ((PMF.uniformOfFintype (Fin k → α)).bind f) - prob ((PMF.uniformOfFintype (Fin k → α)).bind g)| ≤ k * (k - 1 : Nat) / (2 * Fintype.card α) := by
  classical
  refine (prob_uniform_near f g (Finset.univ.filter fun ν => ¬ Function.Injective ν) fun ν hν => h ν ?_).trans (repeating_fraction k)
  simpa using hν

/-! ## Messages as a sequence of ciphertexts -/

/-- Someone who asks for blocks of two lists and goes on with the answer. -/
def blocksGuesser (max : Nat) (num : Nat → Bytes) (ν : Nat → AesNonce) : List (Bytes × Nat × Bytes) → List (Bytes × Nat × Bytes) → Nat →
    (Option (List Bytes) → Guesser) → Guesser
  | (uid, i, p₀) :: b₀, (_, _, p₁) :: b₁, j, next =>
    if p₀ = [] ∨ max < p₀.length ∨ limit < (uid ++ num i).length then next none
    else .ask (ν j).val (uid ++ num i) p₀ p₁ fun c => blocksGuesser max num ν b₀ b₁ (j + 1) fun r => next (r.map (((ν j).val ++ c) :: ·))
  | _, _, _, next => next (some [])

theorem encryptBlock_with (E : Bytes → Bytes) (uid : Bytes) (i : Nat) (p : Bytes) (n : AesNonce) (hmax : max ≤ maxClear) :
    (encryptHybridBlock (gcmWith metaEnc metaDec num) max E uid i p n).toOption =
      if p = [] ∨ max < p.length ∨ limit < (uid ++ num i).length then none
      else some (n.val ++ (ctr E n.val p ++ tag E n.val (uid ++ num i) (ctr E n.val p))) := by
  unfold encryptHybridBlock
  by_cases h1 : p = []
  · subst h1
    rfl
  · rw [if_neg (by simpa using h1)]
    by_cases h2 : max < p.length
    · rw [if_pos h2, if_pos (Or.inr (Or.inl h2))]
      rfl
    · have hl : p.length ≤ limit := by unfold limit; unfold maxClear at hmax; omega
      rw [if_neg h2]
      simp only [gcmWith, if_neg h2]
      by_cases h3 : limit < (uid ++ num i).length
      · rw [if_pos (Or.inr (Or.inr h3))]
        have : Gcm.encrypt E n.val (uid ++ num i) p = .err .cryptoError := by
          unfold Gcm.encrypt
          rw [if_pos (Or.inr h3)]
        rw [this]
        rfl
      · rw [if_neg (by simp only [h1, h2, h3, or_self, not_false_eq_true]), encrypt_eq_ok.2 ⟨hl, by omega, rfl⟩]
        rfl

theorem blocksGuesser_says (hmax : max ≤ maxClear) (ν : Nat → AesNonce) (E : Bytes → Bytes) (side : Bool) : ∀ (b₀ b₁ : List (Bytes × Nat × Bytes)) (j : Nat)
    (next : Option (List Bytes) → Guesser), b₀.map (fun b => (b.1, b.2.1, b.2.2.length)) = b₁.map (fun b => (b.1, b.2.1, b.2.2.length)) →
    (blocksGuesser max num ν b₀ b₁ j next).says E side =
      (next (encryptBlocks (gcmWith metaEnc metaDec num) max E ν (if side then b₁ else b₀) j).toOption).says E side
  | [], [], j, next, _ => by
    rw [ite_self]
    rfl
  | [], _ :: _, _, _, h => by simp at h
  | _ :: _, [], _, _, h => by simp at h
  | (uid, i, p₀) :: b₀, (uid', i', p₁) :: b₁, j, next, h => by
    simp only [List.map_cons, List.cons.injEq, Prod.mk.injEq] at h
    obtain ⟨⟨rfl, rfl, hl⟩, h⟩ := h
    have he : p₀ = [] ↔ p₁ = [] := by rw [← List.length_eq_zero_iff, ← List.length_eq_zero_iff, hl]
    have ht : ∀ (p : Bytes) (bs : List (Bytes × Nat × Bytes)), (encryptBlocks (gcmWith metaEnc metaDec num) max E ν ((uid, i, p) :: bs) j).toOption =
        (encryptHybridBlock (gcmWith metaEnc metaDec num) max E uid i p (ν j)).toOption.bind fun b =>
          (encryptBlocks (gcmWith metaEnc metaDec num) max E ν bs (j + 1)).toOption.map (b :: ·) := by
      intro p bs
      rw [encryptBlocks]
      cases encryptHybridBlock (gcmWith metaEnc metaDec num) max E uid i p (ν j) with
      | ok b =>
        cases encryptBlocks (gcmWith metaEnc metaDec num) max E ν bs (j + 1) <;> rfl
      | err _ => rfl
      | panic => rfl
    have ht' : (encryptBlocks (gcmWith metaEnc metaDec num) max E ν (if side then (uid, i, p₁) :: b₁ else (uid, i, p₀) :: b₀) j).toOption =
        (encryptHybridBlock (gcmWith metaEnc metaDec num) max E uid i (if side then p₁ else p₀) (ν j)).toOption.bind fun b =>
          (encryptBlocks (gcmWith metaEnc metaDec num) max E ν (if side then b₁ else b₀) (j + 1)).toOption.map (b :: ·) := by
      cases side
      · exact ht p₀ b₀
      · exact ht p₁ b₁
    rw [ht', encryptBlock_with E uid i _ (ν j) hmax, blocksGuesser]
    have hcond : ((if side then p₁ else p₀) = [] ∨ max < (if side then p₁ else p₀).length ∨ limit < (uid ++ num i).length) ↔
        (p₀ = [] ∨ max < p₀.length ∨ limit < (uid ++ num i).length) := by
      cases side
      · rfl
      · simp only [if_true]
        rw [he, hl]
    by_cases hc : p₀ = [] ∨ max < p₀.length ∨ limit < (uid ++ num i).length
    · rw [if_pos hc, if_pos (hcond.2 hc)]
      rfl
    · rw [if_neg hc, if_neg (fun h => hc (hcond.1 h)), Guesser.says]
      have hlen : (if side then p₁ else p₀).length ≤ limit := by
        have : (if side then p₁ else p₀).length = p₀.length := by cases side <;> simp [hl]
        rw [this]
        push Not at hc
        unfold limit; unfold maxClear at hmax; omega
      rw [encrypt_eq_ok.2 ⟨hlen, by push Not at hc; exact hc.2.2, rfl⟩]
      simp only [Option.bind_some]
      rw [blocksGuesser_says hmax ν E side b₀ b₁ (j + 1) _ h]

theorem blocksGuesser_proper (hmax : max ≤ maxClear) (ν : Nat → AesNonce) : ∀ (b₀ b₁ : List (Bytes × Nat × Bytes)) (j : Nat)
    (next : Option (List Bytes) → Guesser) (used : List Bytes), b₀.map (fun b => (b.1, b.2.1, b.2.2.length)) = b₁.map (fun b => (b.1, b.2.1, b.2.2.length)) →
    (∀ r used, (next r).Proper used) → (∀ i, j ≤ i → i < j + b₀.length → (ν i).val ∉ used) →
    (∀ i i', j ≤ i → i < j + b₀.length → j ≤ i' → i' < j + b₀.length → ν i = ν i' → i = i') → (blocksGuesser max num ν b₀ b₁ j next).Proper used
  | [], [], j, next, used, _, hn, _, _ => hn _ _
  | [], _ :: _, _, _, _, h, _, _, _ => by simp at h
  | _ :: _, [], _, _, _, h, _, _, _ => by simp at h
  | (uid, i, p₀) :: b₀, (uid', i', p₁) :: b₁, j, next, used, h, hn, hu, hi => by
    simp only [List.map_cons, List.cons.injEq, Prod.mk.injEq] at h
    obtain ⟨⟨rfl, rfl, hl⟩, h⟩ := h
    rw [blocksGuesser]
    split
    · exact hn _ _
    · rename_i hc
      push Not at hc
      rw [List.length_cons] at hu hi
      refine ⟨(ν j).2, hu j le_rfl (by omega), hl, by omega, hc.2.2, fun c => blocksGuesser_proper hmax ν b₀ b₁ (j + 1) _ _ h (fun r used => hn _ _) ?_ ?_⟩
      · intro k h1 h2 hm
        rcases List.mem_cons.1 hm with hm | hm
        · have := hi k j (by omega) (by omega) le_rfl (by omega) (Subtype.ext hm)
          omega
        · exact hu k (by omega) (by omega) hm
      · intro k k' h1 h2 h3 h4
        exact hi k k' (by omega) (by omega) (by omega) (by omega)

/-- Someone who asks for two messages and goes on with the answer. -/
def messageGuesser (max : Nat) (metaEnc : Metadata → Out Bytes) (num : Nat → Bytes) (ν : Nat → AesNonce) (m₀ m₁ : HybridMsg)
    (next : Option (Bytes × List Bytes) → Guesser) : Guesser :=
  match m₀.metaData, m₁.metaData with
  | some a, some b =>
    match metaEnc a, metaEnc b with
    | .ok ea, .ok eb =>
      if 2 ^ 32 ≤ ea.length + 16 then next none
      else .ask (ν 0).val [] ea eb fun c => blocksGuesser max num ν m₀.blocks m₁.blocks 1 fun r => next (r.map fun bs => ((ν 0).val ++ be32 c.length.toUInt32 ++ c, bs))
    | _, _ => next none
  | _, _ => blocksGuesser max num ν m₀.blocks m₁.blocks 1 fun r => next (r.map fun bs => ([], bs))

theorem messageGuesser_proper (hmax : max ≤ maxClear) (ν : Nat → AesNonce) {m₀ m₁ : HybridMsg} (h : m₀.Alike metaEnc m₁)
    (next : Option (Bytes × List Bytes) → Guesser) (hn : ∀ r used, (next r).Proper used)
    (hi : ∀ i i', i ≤ m₀.blocks.length → i' ≤ m₀.blocks.length → ν i = ν i' → i = i') : (messageGuesser max metaEnc num ν m₀ m₁ next).Proper [] := by
  obtain ⟨h1, h2⟩ := h
  unfold messageGuesser
  split
  · rename_i a b ha hb
    rw [ha, hb] at h1
    simp only [Option.map_some, Option.some.injEq] at h1
    split
    · rename_i ea eb hea heb
      rw [hea, heb] at h1
      simp only [Res.toOption_ok, Option.map_some, Option.some.injEq] at h1
      split
      · exact hn _ _
      · rename_i hs
        refine ⟨(ν 0).2, by simp, h1, by unfold maxClear; omega, by simp, fun c => blocksGuesser_proper hmax ν _ _ 1 _ _ h2 (fun r used => hn _ _) ?_ ?_⟩
        · intro i h3 h4 hm
          rw [List.mem_singleton] at hm
          have := hi i 0 (by omega) (by omega) (Subtype.ext hm)
          omega
        · intro i i' h3 h4 h5 h6
          exact hi i i' (by omega) (by omega)
    · exact hn _ _
  · refine blocksGuesser_proper hmax ν _ _ 1 _ _ h2 (fun r used => hn _ _) (by simp) ?_
    intro i i' h3 h4 h5 h6
    exact hi i i' (by omega) (by omega)

theorem encryptUnder_toOption (E : Bytes → Bytes) (m : HybridMsg) (ν : Nat → AesNonce) :
    (encryptUnder (gcmWith metaEnc metaDec num) max E m ν).toOption = (match m.metaData with
      | none => some []
      | some a => (metaEnc a).toOption.bind fun mb => (Gcm.encrypt E (ν 0).val [] mb).toOption.bind fun em => (u32Len em).toOption.map fun size =>
          (ν 0).val ++ size ++ em : Option Bytes).bind fun x => (encryptBlocks (gcmWith metaEnc metaDec num) max E ν m.blocks 1).toOption.map fun bs => (x, bs) := by
  unfold encryptUnder
  obtain ⟨md, bs⟩ := m
  cases md with
  | none =>
    simp only [Res.toOption_bind, Res.toOption_ok, Option.bind_some]
    cases (encryptBlocks (gcmWith metaEnc metaDec num) max E ν bs 1).toOption <;> rfl
  | some a =>
    simp only [Res.toOption_bind, Res.toOption_ok]
    have h1 : (gcmWith metaEnc metaDec num).metaEnc a = metaEnc a := rfl
    have h2 : ∀ mb, (gcmWith metaEnc metaDec num).encrypt E mb (ν 0) none = Gcm.encrypt E (ν 0).val [] mb := fun _ => rfl
    have h3 : (gcmWith metaEnc metaDec num).nonceEnc (ν 0) = (ν 0).val := rfl
    simp only [h1, h2, h3]
    cases (metaEnc a).toOption with
    | none => rfl
    | some mb =>
      simp only [Option.bind_some]
      cases (Gcm.encrypt E (ν 0).val [] mb).toOption with
      | none => rfl
      | some em =>
        simp only [Option.bind_some]
        cases (u32Len em).toOption with
        | none => rfl
        | some size =>
          simp only [Option.bind_some, Option.map_some]
          cases (encryptBlocks (gcmWith metaEnc metaDec num) max E ν bs 1).toOption <;> rfl

theorem encrypt_length {E : Bytes → Bytes} (hE : ∀ b, (E b).length = 16) {n ad m c : Bytes} (h : Gcm.encrypt E n ad m = .ok c) : c.length = m.length + 16 := by
  obtain ⟨-, -, rfl⟩ := encrypt_eq_ok.1 h
  rw [List.length_append, ctr_length hE, tag_length hE]

theorem messageGuesser_says (hmax : max ≤ maxClear) (ν : Nat → AesNonce) {E : Bytes → Bytes} (hE : ∀ b, (E b).length = 16) (side : Bool) {m₀ m₁ : HybridMsg}
    (h : m₀.Alike metaEnc m₁) (next : Option (Bytes × List Bytes) → Guesser) : (messageGuesser max metaEnc num ν m₀ m₁ next).says E side =
      (next (encryptUnder (gcmWith metaEnc metaDec num) max E (if side then m₁ else m₀) ν).toOption).says E side := by
  obtain ⟨h1, h2⟩ := h
  rw [encryptUnder_toOption]
  have hb : (if side then m₁ else m₀).blocks = if side then m₁.blocks else m₀.blocks := by cases side <;> rfl
  have hm : (if side then m₁ else m₀).metaData = if side then m₁.metaData else m₀.metaData := by cases side <;> rfl
  rw [hb, hm]
  unfold messageGuesser
  cases ha : m₀.metaData with
  | none =>
    rw [ha] at h1
    have h3 : m₁.metaData = none := by simpa using h1.symm
    rw [h3]
    simp only [ite_self, Option.bind_some]
    exact blocksGuesser_says hmax ν E side _ _ _ _ h2
  | some a =>
    rw [ha] at h1
    cases hb' : m₁.metaData with
    | none => simp [hb'] at h1
    | some b =>
      rw [hb'] at h1
      simp only [Option.map_some, Option.some.injEq] at h1
      have hi : (if side = true then some b else some a) = some (if side then b else a) := by cases side <;> rfl
      simp only [hi]
      cases hea : metaEnc a with
      | ok ea =>
        cases heb : metaEnc b with
        | ok eb =>
          rw [hea, heb] at h1
          simp only [Res.toOption_ok, Option.map_some, Option.some.injEq] at h1
          have he : metaEnc (if side then b else a) = .ok (if side then eb else ea) := by cases side <;> simp [hea, heb]
          have hl : (if side then eb else ea).length = ea.length := by cases side <;> simp [h1]
          simp only [he, Res.toOption_ok, Option.bind_some]
          by_cases hs : 2 ^ 32 ≤ ea.length + 16
          · rw [if_pos hs]
            have hnone : ((Gcm.encrypt E (ν 0).val [] (if side then eb else ea)).toOption.bind fun em => (u32Len em).toOption.map fun size =>
                (ν 0).val ++ size ++ em) = none := by
              cases hc : Gcm.encrypt E (ν 0).val [] (if side then eb else ea) with
              | ok c =>
                have := encrypt_length hE hc
                simp only [Res.toOption_ok, Option.bind_some]
                unfold u32Len
                rw [if_neg (by omega)]
                rfl
              | err _ => rfl
              | panic => rfl
            rw [hnone]
            rfl
          · rw [if_neg hs, Guesser.says]
            have hc : Gcm.encrypt E (ν 0).val [] (if side then eb else ea) = .ok _ := encrypt_eq_ok.2 ⟨by rw [hl]; unfold limit; omega, by simp, rfl⟩
            have hlc := encrypt_length hE hc
            rw [hc]
            simp only [Res.toOption_ok, Option.bind_some]
            have hu : ∀ c : Bytes, c.length < 2 ^ 32 → u32Len c = .ok (be32 c.length.toUInt32) := fun c h => if_pos h
            rw [hu _ (by omega)]
            simp only [Res.toOption_ok, Option.map_some, Option.bind_some]
            exact blocksGuesser_says hmax ν E side _ _ _ _ h2
        | err _ => simp [hea, heb, Res.toOption] at h1
        | panic => simp [hea, heb, Res.toOption] at h1
      | err _ =>
        have he : (metaEnc (if side then b else a)).toOption = none := by
          cases side
          · simp [hea, Res.toOption]
          · cases heb : metaEnc b with
            | ok eb => simp [hea, heb, Res.toOption] at h1
            | err _ => simp [heb, Res.toOption]
            | panic => simp [heb, Res.toOption]
        rw [he]
        rfl
      | panic =>
        have he : (metaEnc (if side then b else a)).toOption = none := by
          cases side
          · simp [hea, Res.toOption]
          · cases heb : metaEnc b with
            | ok eb => simp [hea, heb, Res.toOption] at h1
            | err _ => simp [heb, Res.toOption]
            | panic => simp [heb, Res.toOption]
        rw [he]
        rfl

/-- With different nonces, a message looks like any other that is alike. -/
theorem message_same (hmax : max ≤ maxClear) (ν : Nat → AesNonce) {m₀ m₁ : HybridMsg} (h : m₀.Alike metaEnc m₁)
    (hi : ∀ i i', i ≤ m₀.blocks.length → i' ≤ m₀.blocks.length → ν i = ν i' → i = i') :
    randomFunction.map (fun E => (encryptUnder (gcmWith metaEnc metaDec num) max (onBytes E) m₁ ν).toOption) =
      randomFunction.map fun E => (encryptUnder (gcmWith metaEnc metaDec num) max (onBytes E) m₀ ν).toOption := by
  ext r
  have key := C104_secrecy (messageGuesser_proper (num := num) hmax ν h (fun x => .guess (decide (x = r))) (fun _ _ => trivial) hi)
  have hs : ∀ side : Bool, (fun E => (messageGuesser max metaEnc num ν m₀ m₁ fun x => .guess (decide (x = r))).says (onBytes E) side) =
      (fun x => some (decide (x = r))) ∘ fun E => (encryptUnder (gcmWith metaEnc metaDec num) max (onBytes E) (if side then m₁ else m₀) ν).toOption := by
    intro side
    funext E
    exact messageGuesser_says hmax ν (onBytes_length E) side h _
  rw [hs true, hs false, ← PMF.map_comp, ← PMF.map_comp] at key
  have hp : ∀ p : PMF (Option (Bytes × List Bytes)), (p.map fun x => some (decide (x = r))) (some true) = p r := by
    intro p
    rw [PMF.map_apply, tsum_eq_single r]
    · simp
    · intro x hx
      simp [hx]
  have h1 := congrArg (fun p : PMF (Option Bool) => p (some true)) key
  simp only [hp] at h1
  exact h1

/-- What somebody says on messages under a random function. -/
theorem message_near (hmax : max ≤ maxClear) {m₀ m₁ : HybridMsg} (h : m₀.Alike metaEnc m₁) {n : Nat} (hn : m₀.blocks.length = n)
    (f : Option (Bytes × List Bytes) → PMF Bool) :
    |prob ((PMF.uniformOfFintype (Fin (n + 1) → AesNonce)).bind fun ν => randomFunction.bind fun E =>
        f (encryptUnder (gcmWith metaEnc metaDec num) max (onBytes E) m₁ (padNonce ν)).toOption) -
      prob ((PMF.uniformOfFintype (Fin (n + 1) → AesNonce)).bind fun ν => randomFunction.bind fun E =>
        f (encryptUnder (gcmWith metaEnc metaDec num) max (onBytes E) m₀ (padNonce ν)).toOption)| ≤ (n + 1) * n / 2 ^ 97 := by
  refine (prob_uniform_injective (n + 1) _ _ fun ν hν => ?_).trans (le_of_eq ?_)
  · have := message_same (metaDec := metaDec) (num := num) hmax (padNonce ν) h (by
      intro i i' h1 h2 h3
      unfold padNonce at h3
      rw [dif_pos (by omega), dif_pos (by omega)] at h3
      simpa using hν h3)
    have hb : ∀ g : (Blk → Blk) → Option (Bytes × List Bytes), randomFunction.bind (fun E => f (g E)) = (randomFunction.map g).bind f := by
      intro g
      rw [PMF.bind_map]
      rfl
    rw [hb, hb, this]
  · rw [card_nonce, Nat.add_sub_cancel, Nat.cast_add, Nat.cast_one, Nat.cast_pow, Nat.cast_two, ← pow_succ']

theorem prob_bool' (E : Bool → PMF Bool) : prob ((PMF.uniformOfFintype Bool).bind fun b => (E b).map (· == b)) - 1 / 2 = (prob (E true) - prob (E false)) / 2 := by
  rw [prob_uniform]
  simp only [Fintype.sum_bool, prob_map_true, prob_map_false, Fintype.card_bool]
  push_cast
  ring

theorem messageTest_comm {α Nonce : Type} [Fintype Nonce] [Nonempty Nonce] (e : External Key Nonce) (D : SymmetricAttacker) (p : PMF α) (F : α → Key) :
    (p.bind fun E => messageTest e max D (F E)) = D.bind fun d => (PMF.uniformOfFintype Bool).bind fun b =>
      ((PMF.uniformOfFintype (Fin ((if b then d.2.1 else d.1).blocks.length + 1) → Nonce)).bind fun ν => p.bind fun E =>
        d.2.2 (encryptUnder e max (F E) (if b then d.2.1 else d.1) (padNonce ν)).toOption).map (· == b) := by
  unfold messageTest
  generalize (PMF.uniformOfFintype Bool) = coin
  rw [PMF.bind_comm, PMF.bind_comm D]
  congr 1; funext b
  rw [PMF.bind_comm]
  congr 1; funext d
  rw [PMF.bind_comm, PMF.map_bind]
  congr 1; funext ν
  rw [PMF.map_bind]

/-- The test with a random function. -/
theorem messageTest_random (hmax : max ≤ maxClear) {n : Nat} (D : SymmetricAttacker) (hD : ∀ d ∈ D.support, d.1.Alike metaEnc d.2.1 ∧ d.1.blocks.length ≤ n) :
    |prob (randomFunction.bind fun E => messageTest (gcmWith metaEnc metaDec num) max D (onBytes E)) - 1 / 2| ≤ (n + 1) * n / 2 ^ 98 := by
  rw [messageTest_comm]
  refine prob_bind_near D _ (by positivity) fun d hd => ?_
  obtain ⟨h1, h2⟩ := hD d hd
  rw [prob_bool' fun b => (PMF.uniformOfFintype (Fin ((if b then d.2.1 else d.1).blocks.length + 1) → AesNonce)).bind fun ν => randomFunction.bind fun E =>
    d.2.2 (encryptUnder (gcmWith metaEnc metaDec num) max (onBytes E) (if b then d.2.1 else d.1) (padNonce ν)).toOption, abs_div]
  have hl : d.2.1.blocks.length = d.1.blocks.length := by
    have := congrArg List.length h1.2
    simpa using this.symm
  have hc : ∀ (m : HybridMsg) (k : Nat), m.blocks.length = k → ((PMF.uniformOfFintype (Fin (m.blocks.length + 1) → AesNonce)).bind fun ν => randomFunction.bind fun E =>
      d.2.2 (encryptUnder (gcmWith metaEnc metaDec num) max (onBytes E) m (padNonce ν)).toOption) = (PMF.uniformOfFintype (Fin (k + 1) → AesNonce)).bind fun ν =>
        randomFunction.bind fun E => d.2.2 (encryptUnder (gcmWith metaEnc metaDec num) max (onBytes E) m (padNonce ν)).toOption := by
    intro m k hk
    subst hk
    rfl
  have key := message_near (metaDec := metaDec) (num := num) hmax h1 (n := d.1.blocks.length) rfl d.2.2
  rw [hc (if true = true then d.2.1 else d.1) _ hl, hc (if false = true then d.2.1 else d.1) d.1.blocks.length rfl]
  simp only [if_true, Bool.false_eq_true, if_false]
  have hn : ((d.1.blocks.length : ℝ) + 1) * d.1.blocks.length ≤ (n + 1) * n := by
    have : (d.1.blocks.length : ℝ) ≤ n := by exact_mod_cast h2
    have h0 : (0 : ℝ) ≤ d.1.blocks.length := by positivity
    nlinarith
  rw [abs_of_pos (by norm_num : (0 : ℝ) < 2), div_le_iff₀ (by norm_num)]
  refine key.trans ?_
  rw [div_mul_eq_mul_div, div_le_div_iff₀ (by positivity) (by positivity)]
  nlinarith

end Abe
